import Verif.Proof.Brackets
import Verif.Proof.ParseTotal

/-! # What is in brackets is part of the tree of the row -/

namespace Aftermath

/-- `P` holds for the result, if there is one. -/
def Gives {α : Type} (x : M α) (P : α → Prop) : Prop := ∀ a, x = .ok a → P a

theorem Gives.bind {α β : Type} {x : M α} {f : α → M β} {P : α → Prop} {Q : β → Prop}
    (h : Gives x P) (hf : ∀ a, P a → Gives (f a) Q) : Gives (x >>= f) Q := by
  intro b hb
  obtain ⟨a, ha, hb⟩ := M.bind_eq_ok.1 hb
  exact hf a (h a ha) b hb

theorem Gives.bind_of {α β : Type} {x : M α} {f : α → M β} {P : α → Prop} {Q : β → Prop}
    (h : Gives x P) (hf : ∀ a, x = .ok a → P a → Gives (f a) Q) : Gives (x >>= f) Q := by
  intro b hb
  obtain ⟨a, ha, hb⟩ := M.bind_eq_ok.1 hb
  exact hf a ha (h a ha) b hb

theorem Gives.ok {α : Type} {a : α} {P : α → Prop} (h : P a) : Gives (.ok a) P := by
  intro b hb
  cases hb
  exact h

theorem Gives.error {α : Type} {e : Panic} {P : α → Prop} : Gives (.error e) P :=
  fun _ h => by cases h

theorem Gives.any {α : Type} (x : M α) : Gives x fun _ => True := fun _ _ => trivial

theorem Gives.and {α : Type} {x : M α} {P Q : α → Prop} (h : Gives x P) (h' : Gives x Q) :
    Gives x fun a => P a ∧ Q a := fun a ha => ⟨h a ha, h' a ha⟩

theorem Sim.gives {α β : Type} {x : M α} {y : M β} {R : α → β → Prop} (h : Sim x y R) :
    Gives x fun a => ∃ b, R a b := by
  intro a ha
  obtain ⟨b, -, hb⟩ := h a ha
  exact ⟨b, hb⟩

/-- Brackets around `u`, somewhere in the tree. -/
def FoundIn (u : SNode) (t : SNode) : Prop := ∃ n, (bracketsAround n u).PartOf t

variable {u : SNode}

/-- A node made from children has in it what one of them has. -/
theorem FoundIn.new {n lo hi : Nat} {cs : List SNode} {c : SNode} (hc : c ∈ cs) (h : FoundIn u c) :
    Gives (SNode.new n lo hi (.children cs)) (FoundIn u) := by
  intro t ht
  rw [new_eq ht]
  obtain ⟨m, h⟩ := h
  exact ⟨m, .child hc h⟩

/-- The place of the opening bracket, what is before it, in it and behind it. -/
structure Place (pre r post row : Row) : Prop where
  row_eq : row = pre ++ (.symbol ['('] :: (r ++ .symbol [')'] :: post))
  inside : Balanced 0 r
  some : r ≠ []

/-- What comes before the brackets does not leave a quote open. -/
def Before (pre : Row) (pos : Nat) : Prop :=
  pos ≤ pre.length ∧ ∃ e m, Balanced e (pre.drop pos ++ List.replicate m (.symbol [')']))

/-- The brackets are in `t`, or `pos` is not behind them. -/
def Acc (u : SNode) (pre : Row) (t : SNode) (pos : Nat) : Prop := FoundIn u t ∨ Before pre pos

variable {pre r post row : Row} {pos d : Nat} {g : Grammar} {call : Rec}

theorem guard_replicate (m : Nat) : Guard (List.replicate m (.symbol [')'])) := by
  cases m with
  | zero => exact .inl rfl
  | succ m => exact .inr ⟨_, rfl⟩

theorem symRun_stop {f : Str → Bool} {s : Str} (hf : f s = false) (rest : Row) :
    ∀ l : Row, symRun f (l ++ .symbol s :: rest) = symRun f l
  | [] => by simp [symRun, hf]
  | .container _ _ _ :: l => rfl
  | .symbol s' :: l => by simp only [List.cons_append, symRun, symRun_stop hf rest l]

theorem prefix_stop {s : Str} (rest : Row) : ∀ {ss : List Str} {l : Row}, s ∉ ss →
    (ss.map Node.symbol).isPrefixOf (l ++ .symbol s :: rest) =
      (ss.map Node.symbol).isPrefixOf l
  | [], _, _ => by simp
  | a :: ss, [], hs => by
    have : a ≠ s := fun h => hs (h ▸ List.mem_cons_self ..)
    simp [List.isPrefixOf, this]
  | a :: ss, n :: l, hs => by
    simp only [List.map_cons, List.cons_append, List.isPrefixOf,
      prefix_stop rest fun h => hs (List.mem_cons_of_mem _ h)]

namespace Place

variable (h : Place pre r post row)
include h

theorem drop (hp : pos ≤ pre.length) :
    row.drop pos = pre.drop pos ++ (.symbol ['('] :: (r ++ .symbol [')'] :: post)) := by
  rw [h.row_eq, List.drop_append_of_le_length hp]

theorem get (hp : pos < pre.length) : row[pos]? = pre[pos]? := by
  rw [h.row_eq, List.getElem?_append_left hp]

theorem get_open : row[pre.length]? = Option.some (.symbol ['(']) := by
  rw [h.row_eq, List.getElem?_append_right (Nat.le_refl _), Nat.sub_self]
  rfl

theorem part : Part (pre.length + 1) r row (.symbol [')'] :: post) := by
  refine ⟨.inr ⟨_, rfl⟩, pre ++ [.symbol ['(']], by simp, ?_⟩
  rw [h.row_eq]
  simp

end Place

namespace Before

variable (hb : Before pre pos)
include hb

/-- Reading a run of ordinary symbols. -/
theorem run {f : Str → Bool} (hf : ∀ s, f s = true → Ordinary s) (h : Place pre r post row) :
    Before pre (pos + (symRun f (row.drop pos)).length) := by
  obtain ⟨hp, e, m, hb⟩ := hb
  have h1 : f ['('] = false := Bool.eq_false_iff.2 fun hh => (hf _ hh).1 rfl
  have h2 : f [')'] = false := Bool.eq_false_iff.2 fun hh => (hf _ hh).2.1 rfl
  rw [h.drop hp, symRun_stop h1]
  have hl := symRun_length f (pre.drop pos)
  have := hb.run hf
  rw [symRun_guard h2 (guard_replicate m), List.drop_append_of_le_length hl, List.drop_drop] at this
  rw [List.length_drop] at hl
  exact ⟨by omega, e, m, this⟩

theorem symbols {ss : List Str} (hs : ∀ s ∈ ss, Ordinary s) (h : Place pre r post row)
    (hp : (ss.map Node.symbol).isPrefixOf (row.drop pos) = true) :
    Before pre (pos + ss.length) := by
  obtain ⟨hle, e, m, hb⟩ := hb
  rw [h.drop hle, prefix_stop _ fun hm => (hs _ hm).1 rfl] at hp
  have hp := List.isPrefixOf_iff_prefix.1 hp
  have hl := hp.length_le
  rw [List.length_map] at hl
  have := hb.symbols hs (hp.trans (List.prefix_append _ _))
  rw [List.drop_append_of_le_length hl, List.drop_drop] at this
  rw [List.length_drop] at hl
  exact ⟨by omega, e, m, this⟩

/-- The next symbol is an ordinary one. -/
theorem next {s : Str} (hs : Ordinary s) (h : Place pre r post row)
    (hg : row[pos]? = some (.symbol s)) : Before pre (pos + 1) := by
  obtain ⟨hp, e, m, hb⟩ := hb
  have hlt : pos < pre.length := by
    refine Nat.lt_of_le_of_ne hp fun he => ?_
    subst he
    rw [h.get_open] at hg
    cases hg
    exact hs.1 rfl
  rw [h.get hlt] at hg
  obtain ⟨_, he⟩ := List.getElem?_eq_some_iff.1 hg
  rw [List.drop_eq_getElem_cons hlt, he] at hb
  exact ⟨hlt, e, m, hb.of_ordinary hs⟩

theorem node {v : Variant} {cells : List Row} {w : Nat} (h : Place pre r post row)
    (hg : row[pos]? = some (.container v cells w)) : Before pre (pos + 1) := by
  obtain ⟨hp, e, m, hb⟩ := hb
  have hlt : pos < pre.length := by
    refine Nat.lt_of_le_of_ne hp fun he => ?_
    subst he
    rw [h.get_open] at hg
    cases hg
  rw [h.get hlt] at hg
  obtain ⟨_, he⟩ := List.getElem?_eq_some_iff.1 hg
  rw [List.drop_eq_getElem_cons hlt, he] at hb
  exact ⟨hlt, e, m, hb.container_tail⟩

theorem opens (h : Place pre r post row) (hne : pos ≠ pre.length)
    (hg : row[pos]? = some (.symbol ['('])) : Before pre (pos + 1) := by
  obtain ⟨hp, e, m, hb⟩ := hb
  have hlt : pos < pre.length := by omega
  rw [h.get hlt] at hg
  obtain ⟨_, he⟩ := List.getElem?_eq_some_iff.1 hg
  rw [List.drop_eq_getElem_cons hlt, he] at hb
  exact ⟨hlt, e + 1, m, hb.open⟩

theorem closes (h : Place pre r post row) (hg : row[pos]? = some (.symbol [')'])) :
    Before pre (pos + 1) := by
  obtain ⟨hp, e, m, hb⟩ := hb
  have hlt : pos < pre.length := by
    refine Nat.lt_of_le_of_ne hp fun he => ?_
    subst he
    rw [h.get_open] at hg
    cases hg
  rw [h.get hlt] at hg
  obtain ⟨_, he⟩ := List.getElem?_eq_some_iff.1 hg
  rw [List.drop_eq_getElem_cons hlt, he] at hb
  obtain ⟨e', -, hb⟩ := hb.close
  exact ⟨hlt, e', m, hb⟩

theorem quotes (hg : pre[pos]? = some (.symbol ['"'])) : ∃ l r', InQuotes l ∧
    pre.drop (pos + 1) = l.map Node.symbol ++ .symbol ['"'] :: r' ∧
      Before pre (pos + 1 + l.length + 1) := by
  obtain ⟨hp, e, m, hb⟩ := hb
  obtain ⟨hlt, he⟩ := List.getElem?_eq_some_iff.1 hg
  rw [List.drop_eq_getElem_cons hlt, he] at hb
  obtain ⟨l, r', hl, heq, hb'⟩ := hb.quote
  replace heq : pre.drop (pos + 1) ++ List.replicate m (Node.symbol [')']) =
    l.map Node.symbol ++ Node.symbol ['"'] :: r' := heq
  have hlen : l.length < (pre.drop (pos + 1)).length := by
    refine Nat.lt_of_not_le fun hle => ?_
    have h1 : (pre.drop (pos + 1) ++ List.replicate m (Node.symbol [')']))[l.length]? =
        some (.symbol ['"']) := by
      rw [heq, List.getElem?_append_right (by simp)]
      simp
    rw [List.getElem?_append_right hle] at h1
    have := List.mem_of_getElem? h1
    have := List.eq_of_mem_replicate this
    cases this
  obtain ⟨r'', hr1, hr2⟩ : ∃ r'', pre.drop (pos + 1) = l.map Node.symbol ++ .symbol ['"'] :: r'' ∧
      r' = r'' ++ List.replicate m (.symbol [')']) := by
    rw [List.append_eq_append_iff] at heq
    rcases heq with ⟨a, h1, h2⟩ | ⟨a, h1, h2⟩
    · have := congrArg List.length h1
      rw [List.length_map, List.length_append] at this
      omega
    · cases a with
      | nil =>
        rw [List.append_nil] at h1
        rw [h1, List.length_map] at hlen
        omega
      | cons n a =>
        rw [List.cons_append] at h2
        injection h2 with h2 h3
        subst h2
        exact ⟨a, h1, h3⟩
  rw [List.length_drop] at hlen
  refine ⟨l, r'', hl, hr1, by omega, e, m, ?_⟩
  rw [hr2] at hb'
  have : pre.drop (pos + 1 + l.length + 1) = r'' := by
    rw [Nat.add_assoc (pos + 1), ← List.drop_drop, hr1, ← List.drop_drop,
      List.drop_left' (List.length_map _)]
    rfl
  rwa [this]

theorem stringBody (h : Place pre r post row) (hg : row[pos]? = some (.symbol ['"'])) :
    Before pre (pos + 1 + (stringBody (row.drop (pos + 1))).length + 1) := by
  have hlt : pos < pre.length := by
    refine Nat.lt_of_le_of_ne hb.1 fun he => ?_
    subst he
    rw [h.get_open] at hg
    cases hg
  rw [h.get hlt] at hg
  obtain ⟨l, r', hl, h1, h2⟩ := hb.quotes hg
  rwa [h.drop hlt, h1, List.append_assoc, List.cons_append, stringBody_quoted hl]

end Before

/-! ## Tokens -/

/-- The call finds the brackets. -/
def Finds (call : Rec) (u : SNode) (pre row : Row) : Prop :=
  ∀ pos d min e, Before pre pos → Balanced d (row.drop pos) → Endings [] d e e →
    Gives (call row pos min e) fun a => Acc u pre a.1.node a.2

/-- What has to hold of a token that begins at `pos`. -/
def TokenFinds (u : SNode) (pre : Row) (pos : Nat) (o : Option (SChildren × Nat)) : Prop :=
  ∀ c p, o = some (c, p) → (∀ n, Gives (SNode.new n pos p c) (FoundIn u)) ∨ Before pre p

theorem part_self (row : Row) : Part 0 row row [] := ⟨.inl rfl, [], rfl, by simp⟩

/-- Everything that is fixed while a row is read. -/
structure Scene (g : Grammar) (call : Rec) (u : SNode) (pre r post row : Row) : Prop where
  tame : g.Tame
  place : Place pre r post row
  step : GoAlong call 0 row row []
  finds : Finds call u pre row
  /-- what is read behind the opening bracket -/
  here : ∀ res p, call row (pre.length + 1) (0, .weak) (.sym [')']) = .ok (res, p) →
    res.node = u ∧ u.lo = pre.length + 1 ∧ u.hi = p

theorem Before.lt_length (h : Place pre r post row) (hb : Before pre pos) : pos < row.length := by
  have := hb.1
  rw [h.row_eq]
  simp only [List.length_append, List.length_cons]
  omega

section

variable (S : Scene g call u pre r post row)
include S

theorem brackets_find (hb : Before pre pos) (hd : Balanced d (row.drop pos)) :
    Gives (parseBrackets call 0 ['('] [')'] row pos) (TokenFinds u pre pos) := by
  have h := S.place
  unfold parseBrackets
  rcases selectSym_cases (f := fun s => s == ['(']) (row := row) (pos := pos) with
    hs | ⟨s, rest, hdr, hf, hs, hlt, hd'⟩
  · rw [hs]
    exact Gives.ok nofun
  · obtain rfl : s = ['('] := by simpa using hf
    rw [hs]
    dsimp only
    rw [hdr] at hd
    have hd1 : Balanced (d + 1) (row.drop (pos + 1)) := hd' ▸ hd.open
    intro o ho
    obtain ⟨⟨child, p2⟩, hcall, ho⟩ := M.bind_eq_ok.1 ho
    dsimp only at ho
    have hget := (drop_cons hdr).1
    rcases selectSym_cases (f := fun s => s == [')']) (row := row) (pos := p2) with
      hs2 | ⟨s, rest, hdr2, hf, hs2, hlt2, hd2⟩
    · rw [hs2] at ho
      cases ho
      exact nofun
    obtain rfl : s = [')'] := by simpa using hf
    have hget2 := (drop_cons hdr2).1
    rw [hs2] at ho
    simp only [new_leaf, M.ok_bind] at ho
    cases ho
    rintro _ _ ⟨⟩
    by_cases hpos : pos = pre.length
    · subst hpos
      obtain ⟨h1, h2, h3⟩ := S.here _ _ hcall
      refine .inl fun n t ht => ⟨n, ?_⟩
      rw [new_eq ht, bracketsAround, h1, h2, h3]
      exact .here
    · have hb1 := hb.opens h hpos hget
      rcases S.finds _ _ _ _ hb1 hd1 .inner _ hcall with hf | hb2
      · exact .inl fun n => FoundIn.new (c := child.node) (by simp) hf
      · exact .inr (hb2.closes h hget2)

omit S in
theorem emptyBrackets_find (h : Place pre r post row) (hb : Before pre pos) (n : Nat) :
    Gives (parseEmptyBrackets n ['('] [')'] row pos) (TokenFinds u pre pos) := by
  unfold parseEmptyBrackets
  rcases selectSym_cases (f := fun s => s == ['(']) (row := row) (pos := pos) with
    hs | ⟨s, rest, hdr, hf, hs, hlt, hd'⟩
  · rw [hs]
    exact Gives.ok nofun
  obtain rfl : s = ['('] := by simpa using hf
  rw [hs]
  dsimp only
  rcases selectSym_cases (f := fun s => s == [')']) (row := row) (pos := pos + 1) with
    hs2 | ⟨s, rest, hdr2, hf, hs2, hlt2, hd2⟩
  · rw [hs2]
    exact Gives.ok nofun
  obtain rfl : s = [')'] := by simpa using hf
  rw [hs2]
  simp only [new_leaf, M.ok_bind]
  refine Gives.ok ?_
  rintro _ _ ⟨⟩
  have hget := (drop_cons hdr).1
  have hget2 := (drop_cons hdr2).1
  refine .inr ((hb.opens h ?_ hget).closes h hget2)
  rintro rfl
  rw [h.row_eq, List.getElem?_append_right (by omega)] at hget2
  have hr := h.inside
  cases r with
  | nil => exact h.some rfl
  | cons n r =>
    simp at hget2
    subst hget2
    obtain ⟨_, h0, -⟩ := hr.close
    cases h0

omit S in
theorem container_before (h : Place pre r post row) (hb : Before pre pos) (v : Variant) :
    Gives (parseContainer call v row pos) fun o => ∀ c p, o = some (c, p) → Before pre p := by
  unfold parseContainer
  split
  · rename_i hg
    split
    · refine Gives.bind (Gives.any _) fun _ _ => Gives.bind (Gives.any _) fun _ _ => Gives.ok ?_
      rintro _ _ ⟨⟩
      exact hb.node h hg
    · exact Gives.ok nofun
  · exact Gives.ok nofun

omit S in
theorem numberDigits_before (h : Place pre r post row) (hb : Before pre pos) {a : List Str} {p : Nat}
    (hn : numberDigits row pos = some (a, p)) : Before pre p := by
  unfold numberDigits at hn
  dsimp only at hn
  split at hn
  · cases hn
  · cases hn
    exact hb.run isDigits_ordinary h

omit S in
theorem fractional_before (h : Place pre r post row) (hb : Before pre pos) {a : List Str} {p : Nat}
    (hn : parseFractional row pos = some (a, p)) : Before pre p := by
  unfold parseFractional at hn
  rcases selectSym_cases (f := fun s => s == ['.']) (row := row) (pos := pos) with
    hs | ⟨s, rest, hd, hf, hs, hlt, hd'⟩
  · rw [hs] at hn
    cases hn
  · obtain rfl : s = ['.'] := by simpa using hf
    rw [hs] at hn
    simp only [Option.bind_eq_bind, Option.bind_some] at hn
    have hb1 := hb.next ⟨by decide, by decide, by decide⟩ h (drop_cons hd).1
    cases hm : numberDigits row (pos + 1) with
    | none => rw [hm] at hn; cases hn
    | some x =>
      obtain ⟨b, q⟩ := x
      rw [hm] at hn
      cases hn
      exact numberDigits_before h hb1 hm

omit S in
theorem number_before (h : Place pre r post row) (hb : Before pre pos) {c : SChildren} {p : Nat}
    (hn : parseNumber row pos = some (c, p)) : Before pre p := by
  unfold parseNumber at hn
  cases hm : numberDigits row pos with
  | none => rw [hm] at hn; cases hn
  | some x =>
    obtain ⟨b, q⟩ := x
    have hb1 := numberDigits_before h hb hm
    rw [hm] at hn
    simp only [Option.bind_eq_bind, Option.bind_some] at hn
    cases hk : parseFractional row q with
    | none => rw [hk] at hn; cases hn; exact hb1
    | some y =>
      obtain ⟨b', q'⟩ := y
      rw [hk] at hn
      cases hn
      exact fractional_before h hb1 hk

omit S in
theorem variable_before (hg : g.Tame) (h : Place pre r post row) (hb : Before pre pos)
    {c : SChildren} {p : Nat} (hn : parseVariable g row pos = some (c, p)) : Before pre p := by
  have hst : ∀ s, isIdentifierStart g s = true → Ordinary s := ordinary_of
    (by simp [isIdentifierStart, hg.start]) (by simp [isIdentifierStart, hg.start])
    (by simp [isIdentifierStart, hg.start])
  have hco : ∀ s, isIdentifierContinue g s = true → Ordinary s := ordinary_of
    (by simp [isIdentifierContinue, hg.continue_]) (by simp [isIdentifierContinue, hg.continue_])
    (by simp [isIdentifierContinue, hg.continue_])
  unfold parseVariable at hn
  rcases selectSym_cases (f := isIdentifierStart g) (row := row) (pos := pos) with
    hs | ⟨s, rest, hd, hf, hs, hlt, hd'⟩
  · rw [hs] at hn
    cases hn
  · rw [hs] at hn
    simp only [Option.bind_eq_bind, Option.bind_some] at hn
    cases hn
    exact (hb.next (hst s hf) h (drop_cons hd).1).run hco h

omit S in
theorem string_before (h : Place pre r post row) (hb : Before pre pos)
    {c : SChildren} {p : Nat} (hn : parseString row pos = some (c, p)) : Before pre p := by
  unfold parseString at hn
  rcases selectSym_cases (f := fun s => s == ['"']) (row := row) (pos := pos) with
    hs | ⟨s, rest, hd, hf, hs, hlt, hd'⟩
  · rw [hs] at hn
    cases hn
  · obtain rfl : s = ['"'] := by simpa using hf
    rw [hs] at hn
    simp only [Option.bind_eq_bind, Option.bind_some] at hn
    have hb1 := hb.stringBody h (drop_cons hd).1
    rcases selectSym_cases (f := fun s => s == ['"']) (row := row)
      (pos := pos + 1 + (stringBody (row.drop (pos + 1))).length) with
      hs2 | ⟨s, rest, hd2, hf, hs2, hlt2, hd2'⟩
    · rw [hs2] at hn
      cases hn
    · rw [hs2] at hn
      cases hn
      exact hb1

theorem token_find (hb : Before pre pos) (hd : Balanced d (row.drop pos)) {tp : TokenParser}
    (ht : tp.Tame) : Gives (tokenParse call g tp row pos) (TokenFinds u pre pos) := by
  have h := S.place
  cases tp with
  | symbols ss ty =>
    refine Gives.ok ?_
    unfold justSymbols
    split
    · rename_i hp
      rintro _ _ ⟨⟩
      exact .inr (hb.symbols ht.2 h hp)
    · exact nofun
  | brackets n o c =>
    obtain ⟨rfl, rfl, rfl⟩ := ht
    exact brackets_find S hb hd
  | emptyBrackets n o c =>
    obtain ⟨rfl, rfl⟩ := ht
    exact emptyBrackets_find h hb n
  | container v =>
    intro o ho c p hc
    exact .inr (container_before h hb v o ho c p hc)
  | «variable» => exact Gives.ok fun c p hc => .inr (variable_before S.tame h hb hc)
  | number => exact Gives.ok fun c p hc => .inr (number_before h hb hc)
  | string => exact Gives.ok fun c p hc => .inr (string_before h hb hc)

/-! ## Rules -/

omit S in
theorem spaces_before (h : Place pre r post row) (hb : Before pre pos) :
    Gives (parseSpaces g row pos) fun a => Before pre a.2 := by
  unfold parseSpaces
  dsimp only
  split
  · exact Gives.ok hb
  · exact Gives.bind (Gives.any _) fun _ _ => Gives.ok
      (hb.run (ordinary_of (by decide) (by decide) (by decide)) h)

omit S in
theorem whitespaces_found {t : SNode} (hf : FoundIn u t) (b : BuiltIn) (before after : Option SNode)
    (lo hi : Nat) : Gives (b.whitespacesNode before t after lo hi) (FoundIn u) := by
  cases before <;> cases after
  · exact Gives.ok hf
  · exact FoundIn.new (c := t) (by simp) hf
  · exact FoundIn.new (c := t) (by simp) hf
  · exact FoundIn.new (c := t) (by simp) hf

omit S in
theorem script_before (h : Place pre r post row) (hb : Before pre pos) (v : Variant) :
    Gives (parseScript call g v row pos) fun o => ∀ t p, o = some (t, p) → Before pre p := by
  unfold parseScript
  refine Gives.bind (container_before h hb v) fun o ho => ?_
  cases o with
  | none => exact Gives.ok nofun
  | some x =>
    obtain ⟨c, p1⟩ := x
    refine Gives.bind (Gives.any _) fun t _ => ?_
    refine Gives.bind (spaces_before h (ho _ _ rfl)) fun a ha => ?_
    refine Gives.bind (Gives.any _) fun _ _ => Gives.ok ?_
    rintro _ _ ⟨⟩
    exact ha

omit S in
theorem postfix_found {n : Nat} {op t : SNode} (hf : FoundIn u op ∨ FoundIn u t) :
    Gives (buildPostfix n op t) (FoundIn u) := by
  unfold buildPostfix
  rcases hf with hf | hf
  · exact FoundIn.new (c := op) (by simp) hf
  · exact FoundIn.new (c := t) (by simp) hf

omit S in
theorem prefix_found {n : Nat} {op t : SNode} (hf : FoundIn u op ∨ FoundIn u t) :
    Gives (buildPrefix n op t) (FoundIn u) := by
  unfold buildPrefix
  rcases hf with hf | hf
  · exact FoundIn.new (c := op) (by simp) hf
  · exact FoundIn.new (c := t) (by simp) hf

omit S in
theorem infix_found {n : Nat} {op a b : SNode} (hf : FoundIn u op ∨ FoundIn u a ∨ FoundIn u b) :
    Gives (buildInfix n op a b) (FoundIn u) := by
  unfold buildInfix
  rcases hf with hf | hf | hf
  · exact FoundIn.new (c := op) (by simp) hf
  · exact FoundIn.new (c := a) (by simp) hf
  · exact FoundIn.new (c := b) (by simp) hf

omit S in
theorem missing_found {a b : SNode} (hf : FoundIn u a ∨ FoundIn u b) :
    Gives (makeMissingOperator g a b) (FoundIn u) := by
  unfold makeMissingOperator BuiltIn.errorMissingOperator
  refine Gives.bind (Gives.any _) fun x _ => ?_
  rcases hf with hf | hf
  · exact FoundIn.new (c := a) (by simp) hf
  · exact FoundIn.new (c := b) (by simp) hf

omit S in
theorem scripts_find (h : Place pre r post row) : ∀ (n : Nat) (t : SNode) (pos : Nat),
    Acc u pre t pos → Gives (parseScripts call g row n t pos) fun a => Acc u pre a.1 a.2 := by
  intro n
  induction n with
  | zero => intros; exact Gives.error
  | succ n ih =>
    intro t pos ha
    have hscript : ∀ v, Gives (parseScript call g v row pos) fun o => ∀ s p, o = some (s, p) →
        FoundIn u t ∨ Before pre p := by
      intro v
      rcases ha with hf | hb
      · exact fun _ _ _ _ _ => .inl hf
      · intro o ho s p hs
        exact .inr (script_before h hb v o ho s p hs)
    have hgo : ∀ {s p m}, (FoundIn u t ∨ Before pre p) → Gives (do
        let t' ← buildPostfix m s t
        parseScripts call g row n t' p) fun a => Acc u pre a.1 a.2 := by
      intro s p m hh a hh2
      obtain ⟨t', ht', hh2⟩ := M.bind_eq_ok.1 hh2
      refine ih t' p ?_ a hh2
      rcases hh with hf | hb
      · exact .inl (postfix_found (.inr hf) _ ht')
      · exact .inr hb
    unfold parseScripts
    refine Gives.bind (hscript .sub) fun o ho => ?_
    cases o with
    | some x => exact hgo (ho _ _ rfl)
    | none =>
      refine Gives.bind (hscript .sup) fun o ho => ?_
      cases o with
      | some x => exact hgo (ho _ _ rfl)
      | none => exact Gives.ok ha

theorem rule_find (hb : Before pre pos) (hd : Balanced d (row.drop pos)) {ru : Rule}
    (ht : ru.parser.Tame) : Gives (ruleParse call g ru row pos) fun o => ∀ t p, o = some (t, p) →
      Acc u pre t p := by
  have h := S.place
  unfold ruleParse
  refine Gives.bind ((spaces_before h hb).and
    (spaces_step (part_self row) (Nat.le_of_lt (hb.lt_length h)) hd).gives) ?_
  rintro ⟨before, p1⟩ ⟨hb1, -, -, -, hd1⟩
  refine Gives.bind (token_find S hb1 hd1 ht) fun o ho => ?_
  cases o with
  | none => exact Gives.ok nofun
  | some x =>
    obtain ⟨c, p2⟩ := x
    have ho := ho _ _ rfl
    have htok : Gives (SNode.new (tokenName g ru) p1 p2 c) fun t => Acc u pre t p2 := by
      rcases ho with hf | hb2
      · exact fun t ht => .inl (hf _ t ht)
      · exact fun _ _ => .inr hb2
    refine Gives.bind htok fun t hacc => ?_
    have hsp : Gives (parseSpaces g row p2) fun a => FoundIn u t ∨ Before pre a.2 := by
      rcases hacc with hf | hb2
      · exact fun _ _ => .inl hf
      · exact fun a ha => .inr (spaces_before h hb2 a ha)
    refine Gives.bind hsp ?_
    rintro ⟨after, p3⟩ hacc
    have hws : Gives (g.builtIn.whitespacesNode before t after pos p3) fun t => Acc u pre t p3 := by
      rcases hacc with hf | hb2
      · exact fun _ hh => .inl (whitespaces_found hf _ _ _ _ _ _ hh)
      · exact fun _ _ => .inr hb2
    refine Gives.bind hws fun t' hacc => ?_
    split
    · refine Gives.bind (scripts_find h _ _ _ hacc) ?_
      rintro ⟨a, p4⟩ hacc
      refine Gives.ok ?_
      rintro _ _ ⟨⟩
      exact hacc
    · refine Gives.ok ?_
      rintro _ _ ⟨⟩
      exact hacc

theorem iter_find (hb : Before pre pos) (hd : Balanced d (row.drop pos)) :
    ∀ {rs : List Rule}, (∀ r ∈ rs, r.parser.Tame) →
    Gives (parseIter call g row pos rs) fun o => ∀ t ru p, o = some (t, ru, p) → Acc u pre t p
  | [], _ => Gives.ok nofun
  | ru :: rs, ht => by
    unfold parseIter
    refine Gives.bind (rule_find S hb hd (ht ru (List.mem_cons_self ..))) fun o ho => ?_
    cases o with
    | none => exact iter_find hb hd fun r hr => ht r (List.mem_cons_of_mem _ hr)
    | some x =>
      refine Gives.ok ?_
      rintro _ _ _ ⟨⟩
      exact ho _ _ rfl

/-! ## Unknown symbols -/

theorem unknownAtom_before (hb : Before pre pos) (hd : Balanced d (row.drop pos))
    (hn : parseIter call g row pos g.atoms = .ok none) {e : Ending} (he : Endings [] d e e)
    (hend : isAtEnd row pos e = false) :
    Gives (makeUnknownAtom g row pos) fun _ => Before pre (pos + 1) := by
  have hlt := hb.lt_length S.place
  unfold makeUnknownAtom
  rw [List.getElem?_eq_getElem hlt]
  simp only [munwrap, M.ok_bind]
  have hdr := List.drop_eq_getElem_cons hlt
  cases hn' : row[pos] with
  | container _ _ _ => exact Gives.error
  | symbol s =>
    rw [hn'] at hdr
    have ho := unknown_ordinary S.tame S.step hdr hd hn he hend
    exact fun _ _ => hb.next ho S.place (drop_cons hdr).1

theorem unknownLoop_find {e : Ending} (he : Endings [] d e e) : ∀ (n : Nat) (t : SNode) (pos : Nat),
    pos ≤ row.length → Balanced d (row.drop pos) → Acc u pre t pos →
    Gives (unknownLoop call g row e n t pos) fun a => Acc u pre a.1 a.2 := by
  intro n
  induction n with
  | zero => intros; exact Gives.error
  | succ n ih =>
    intro t pos hp hd hacc
    unfold unknownLoop
    refine Gives.bind (stops_step S.tame S.step (part_self row) hp hd he).gives ?_
    rintro a ⟨_, -, ha⟩
    cases a with
    | true => exact Gives.ok hacc
    | false =>
      obtain ⟨hend, hat⟩ := ha rfl
      have hstep := (unknownAtom_step S.tame S.step (part_self row) hd hp hat he hend).gives
      have hat' : Gives (makeUnknownAtom g row pos) fun _ => FoundIn u t ∨ Before pre (pos + 1) := by
        rcases hacc with hf | hb
        · exact fun _ _ => .inl hf
        · exact fun x hx => .inr (unknownAtom_before S hb hd hat he hend x hx)
      refine Gives.bind (hstep.and hat') ?_
      rintro x ⟨⟨_, -, hp1, hd1⟩, hacc⟩
      have hm : Gives (makeMissingOperator g t x) fun y => Acc u pre y (pos + 1) := by
        rcases hacc with hf | hb
        · exact fun y hy => .inl (missing_found (.inl hf) y hy)
        · exact fun _ _ => .inr hb
      exact Gives.bind hm fun y hy => ih y (pos + 1) hp1 hd1 hy

theorem unknown_find {e : Ending} (he : Endings [] d e e) (hp : pos ≤ row.length)
    (hd : Balanced d (row.drop pos)) (hat : parseIter call g row pos g.atoms = .ok none)
    (hend : isAtEnd row pos e = false) (hb : Before pre pos) :
    Gives (parseUnknown call g row e pos) fun a => Acc u pre a.1 a.2 := by
  unfold parseUnknown
  have hstep := (unknownAtom_step S.tame S.step (part_self row) hd hp hat he hend).gives
  refine Gives.bind (hstep.and (unknownAtom_before S hb hd hat he hend)) ?_
  rintro x ⟨⟨_, -, hp1, hd1⟩, hb1⟩
  exact unknownLoop_find S he _ _ _ hp1 hd1 (.inr hb1)

/-! ## Expressions -/

/-- The tree of a beginning. -/
def Start.tree : Start → SNode
  | .left t => t
  | .finished t => t

theorem start_find {e : Ending} (he : Endings [] d e e) (hb : Before pre pos)
    (hd : Balanced d (row.drop pos)) :
    Gives (prattStart call g row e pos) fun a => Acc u pre a.1.tree a.2 := by
  obtain ⟨t1, t2, t3, t4⟩ := ofRole_tame S.tame
  have hlt := hb.lt_length S.place
  have hp := Nat.le_of_lt hlt
  have e1 : atInputEnd row pos = false := by simp [atInputEnd]; omega
  unfold prattStart
  simp only [e1, Bool.false_eq_true, if_false]
  refine Gives.bind ((iter_find S hb hd t1).and
    (iter_step S.tame S.step (part_self row) hp hd t1).gives) ?_
  rintro a ⟨ha, _, -, hd1⟩
  cases a with
  | some x =>
    obtain ⟨op, ru, p1⟩ := x
    obtain ⟨-, hd1⟩ := hd1 _ _ _ rfl
    have hcall : Gives (call row p1 ru.kind.strengthRight e) fun a =>
        FoundIn u op ∨ Acc u pre a.1.node a.2 := by
      rcases ha _ _ _ rfl with hf | hb1
      · exact fun _ _ => .inl hf
      · exact fun a ha => .inr (S.finds _ _ _ _ hb1 hd1 he a ha)
    refine Gives.bind hcall ?_
    rintro ⟨right, p2⟩ hacc
    have hpre : Gives (buildPrefix ru.name op right.node) fun t => Acc u pre t p2 := by
      rcases hacc with hf | hf | hb2
      · exact fun t ht => .inl (prefix_found (.inl hf) t ht)
      · exact fun t ht => .inl (prefix_found (.inr hf) t ht)
      · exact fun _ _ => .inr hb2
    refine Gives.bind hpre fun t ht => ?_
    cases right with
    | expression _ => exact Gives.ok ht
    | stop _ => exact Gives.ok ht
  | none =>
    refine Gives.bind_of (iter_find S hb hd t2) fun o ho hat => ?_
    cases o with
    | some x => exact Gives.ok (hat _ _ _ rfl)
    | none =>
      refine Gives.bind (Gives.any _) fun b _ => ?_
      split
      · exact Gives.bind (Gives.any _) fun _ _ => Gives.ok (.inr hb)
      · split
        · exact Gives.bind (Gives.any _) fun _ _ => Gives.ok (.inr hb)
        · rename_i hend
          refine Gives.bind (unknown_find S he hp hd ho (Bool.eq_false_iff.2 hend) hb) ?_
          exact fun a ha => Gives.ok ha

theorem loop_find {e : Ending} (he : Endings [] d e e) (min : Power) :
    ∀ (n : Nat) (t : SNode) (pos : Nat), pos ≤ row.length → Balanced d (row.drop pos) →
    Acc u pre t pos → Gives (prattLoop call g row min e n t pos) fun a => Acc u pre a.1.node a.2 := by
  obtain ⟨t1, t2, t3, t4⟩ := ofRole_tame S.tame
  intro n
  induction n with
  | zero => intros; exact Gives.error
  | succ n ih =>
    intro t pos hp hd hacc
    have hiter : ∀ {rs : List Rule}, (∀ r ∈ rs, r.parser.Tame) →
        Gives (parseIter call g row pos rs) fun o => ∀ op ru p, o = some (op, ru, p) →
          (FoundIn u t ∨ Acc u pre op p) ∧ p ≤ row.length ∧ Balanced d (row.drop p) := by
      intro rs hrs o ho op ru p heq
      obtain ⟨_, -, -, h2⟩ := iter_step S.tame S.step (part_self row) hp hd hrs o ho
      refine ⟨?_, h2 _ _ _ heq⟩
      rcases hacc with hf | hb
      · exact .inl hf
      · exact .inr (iter_find S hb hd hrs o ho _ _ _ heq)
    unfold prattLoop
    split
    · exact Gives.ok hacc
    refine Gives.bind (hiter t3) fun o ho => ?_
    cases o with
    | some x =>
      obtain ⟨op, ru, p1⟩ := x
      obtain ⟨hacc1, hp1, hd1⟩ := ho _ _ _ rfl
      dsimp only
      split
      · exact Gives.ok hacc
      · have hcall : Gives (call row p1 ru.kind.strengthRight e) fun a =>
            ((FoundIn u op ∨ FoundIn u t) ∨ Acc u pre a.1.node a.2) := by
          rcases hacc1 with hf | hf | hb1
          · exact fun _ _ => .inl (.inr hf)
          · exact fun _ _ => .inl (.inl hf)
          · exact fun a ha => .inr (S.finds _ _ _ _ hb1 hd1 he a ha)
        refine Gives.bind (hcall.and (S.step p1 d _ _ _ hp1 hd1 he).gives) ?_
        rintro ⟨right, p2⟩ ⟨hacc2, _, -, hp2, hd2, -⟩
        have hbuild : Gives (buildInfix ru.name op t right.node) fun y => Acc u pre y p2 := by
          rcases hacc2 with (hf | hf) | hf | hb2
          · exact fun y hy => .inl (infix_found (.inl hf) y hy)
          · exact fun y hy => .inl (infix_found (.inr (.inl hf)) y hy)
          · exact fun y hy => .inl (infix_found (.inr (.inr hf)) y hy)
          · exact fun _ _ => .inr hb2
        refine Gives.bind hbuild fun y hy => ?_
        cases right with
        | expression _ => exact ih y p2 hp2 hd2 hy
        | stop _ => exact Gives.ok hy
    | none =>
      refine Gives.bind (hiter t4) fun o ho => ?_
      cases o with
      | some x =>
        obtain ⟨op, ru, p1⟩ := x
        obtain ⟨hacc1, hp1, hd1⟩ := ho _ _ _ rfl
        dsimp only
        split
        · exact Gives.ok hacc
        · have hbuild : Gives (buildPostfix ru.name op t) fun y => Acc u pre y p1 := by
            rcases hacc1 with hf | hf | hb2
            · exact fun y hy => .inl (postfix_found (.inr hf) y hy)
            · exact fun y hy => .inl (postfix_found (.inl hf) y hy)
            · exact fun _ _ => .inr hb2
          exact Gives.bind hbuild fun y hy => ih y p1 hp1 hd1 hy
      | none =>
        refine Gives.bind (either_step S.tame S.step (part_self row) hp hd t1 t2).gives ?_
        rintro a ⟨_, -, hat⟩
        cases a with
        | true =>
          simp only [if_true]
          split
          · exact Gives.ok hacc
          · have hcall : Gives (call row pos missingOperatorKind.strengthRight e) fun a =>
                (FoundIn u t ∨ Acc u pre a.1.node a.2) := by
              rcases hacc with hf | hb1
              · exact fun _ _ => .inl hf
              · exact fun a ha => .inr (S.finds _ _ _ _ hb1 hd he a ha)
            refine Gives.bind (hcall.and (S.step pos d _ _ _ hp hd he).gives) ?_
            rintro ⟨right, p2⟩ ⟨hacc2, _, -, hp2, hd2, -⟩
            have hbuild : Gives (makeMissingOperator g t right.node) fun y => Acc u pre y p2 := by
              rcases hacc2 with hf | hf | hb2
              · exact fun y hy => .inl (missing_found (.inl hf) y hy)
              · exact fun y hy => .inl (missing_found (.inr hf) y hy)
              · exact fun _ _ => .inr hb2
            refine Gives.bind hbuild fun y hy => ?_
            cases right with
            | expression _ => exact ih y p2 hp2 hd2 hy
            | stop _ => exact Gives.ok hy
        | false =>
          simp only [Bool.false_eq_true, if_false]
          split
          · exact Gives.ok hacc
          · rename_i hend
            have hend := Bool.eq_false_iff.2 hend
            have hun : Gives (parseUnknown call g row e pos) fun a =>
                (FoundIn u t ∨ Acc u pre a.1 a.2) := by
              rcases hacc with hf | hb1
              · exact fun _ _ => .inl hf
              · exact fun a ha => .inr (unknown_find S he hp hd (hat rfl) hend hb1 a ha)
            refine Gives.bind (hun.and (parseUnknown_step S.tame S.step (part_self row) he hp hd
              (hat rfl) hend).gives) ?_
            rintro ⟨v, p1⟩ ⟨hacc2, _, -, hp1, hd1⟩
            have hbuild : Gives (makeMissingOperator g t v) fun y => Acc u pre y p1 := by
              rcases hacc2 with hf | hf | hb2
              · exact fun y hy => .inl (missing_found (.inl hf) y hy)
              · exact fun y hy => .inl (missing_found (.inr hf) y hy)
              · exact fun _ _ => .inr hb2
            exact Gives.bind hbuild fun y hy => ih y p1 hp1 hd1 hy

theorem body_find : Finds (prattBody call g) u pre row := by
  intro pos d min e hb hd he
  unfold prattBody
  have hp := Nat.le_of_lt (hb.lt_length S.place)
  refine Gives.bind ((start_find S he hb hd).and
    (start_step S.tame S.step (part_self row) he hp hd).gives) ?_
  rintro ⟨s, p⟩ ⟨hacc, _, -, hp1, hd1, -⟩
  cases s with
  | finished t => exact Gives.ok hacc
  | left t => exact loop_find S he min _ _ _ hp1 hd1 hacc

end

theorem pratt_find (hg : g.Tame) (h : Place pre r post row)
    (here : ∀ F res p, pratt g F row (pre.length + 1) (0, .weak) (.sym [')']) = .ok (res, p) →
      res.node = u ∧ u.lo = pre.length + 1 ∧ u.hi = p) : ∀ F, Finds (pratt g F) u pre row
  | 0 => fun _ _ _ _ _ _ _ => Gives.error
  | F + 1 => body_find ⟨hg, h, pratt_step hg (part_self row) F, pratt_find hg h here F, here F⟩

end Aftermath
