import Verif.Proof.Modules

/-! # The order of the modules -/

namespace Aftermath

/-- The parser with the given modules. -/
abbrev withModules (b : BuiltIn) (x : Xid) (M : List (List Rule)) : Grammar :=
  ⟨b, M, x.start, x.continue_⟩

/-- The rules of a module for a role that can start here, the last one first. -/
def modRules (b : BuiltIn) (x : Xid) (role : Role) (rest : Row) (k : List Rule) : List Rule :=
  ((k.filter fun r => r.role == some role).filter fun r =>
    starts (withModules b x []) rest r.parser).reverse

variable {b : BuiltIn} {x : Xid} {all M M' : List (List Rule)} {v : Nat}

theorem mem_modRules {role : Role} {rest : Row} {k : List Rule} {r : Rule} :
    r ∈ modRules b x role rest k ↔
      r ∈ k ∧ r.role = some role ∧ starts (withModules b x []) rest r.parser = true := by
  unfold modRules
  simp only [List.mem_reverse, List.mem_filter, beq_iff_eq, and_assoc]

theorem ofRole_blocks (role : Role) (rest : Row) :
    ((withModules b x M).ofRole role).filter (fun r => starts (withModules b x M) rest r.parser) =
      (M.reverse.map (modRules b x role rest)).flatten := by
  have hs : (fun r : Rule => starts (withModules b x M) rest r.parser) =
      fun r => starts (withModules b x []) rest r.parser :=
    funext fun r => starts_modules rest r.parser
  rw [hs, ofRole_eq, List.filter_reverse]
  clear hs
  simp only
  induction M with
  | nil => rfl
  | cons k M ih =>
    simp only [List.flatten_cons, List.filter_append, List.reverse_append, ih, List.reverse_cons,
      List.map_append, List.map_cons, List.map_nil, List.flatten_append, List.flatten_nil,
      List.append_nil, modRules]

theorem parseIter_append_left {call : Rec} {g : Grammar} {row : Row} {pos : Nat} :
    ∀ {a b : List Rule}, parseIter call g row pos a ≠ .ok none →
    parseIter call g row pos (a ++ b) = parseIter call g row pos a
  | [], _, h => absurd rfl h
  | r :: a, b, h => by
    rw [List.cons_append, parseIter, parseIter]
    rw [parseIter] at h
    cases hr : ruleParse call g r row pos with
    | error e => rfl
    | ok o =>
      rw [hr] at h
      cases o with
      | some y => rfl
      | none => exact parseIter_append_left h

open Classical in
/-- Trying the same rules several times is no different from trying them once. -/
theorem parseIter_blocks {call : Rec} {g : Grammar} {row : Row} {pos : Nat} {A : List Rule} :
    ∀ {L : List (List Rule)}, (∀ B ∈ L, B = [] ∨ B = A) →
    parseIter call g row pos L.flatten =
      if A ∈ L then parseIter call g row pos A else .ok none
  | [], _ => by simp [parseIter]
  | B :: L, h => by
    have ih := parseIter_blocks (call := call) (g := g) (row := row) (pos := pos)
      (fun B hB => h B (List.mem_cons_of_mem _ hB))
    rw [List.flatten_cons]
    by_cases hA : A = []
    · subst hA
      have hB : B = [] := by rcases h B (List.mem_cons_self ..) with h | h <;> exact h
      rw [hB, List.nil_append, ih]
      simp [parseIter]
    · rcases h B (List.mem_cons_self ..) with rfl | rfl
      · rw [List.nil_append, ih]
        simp [hA]
      · rw [if_pos (List.mem_cons_self ..)]
        by_cases hn : parseIter call g row pos B = .ok none
        · rw [parseIter_append (parseIter_none.1 hn), ih, hn, ite_self]
        · exact parseIter_append_left hn

theorem exists_spaces (row : Row) (pos : Nat) : ∃ i rest, row.drop pos = sp i ++ rest ∧
    isSym [' '] rest.head? = false ∧ i = leadingSpaces (row.drop pos) := by
  have key : ∀ l : Row, ∃ rest, l = sp (leadingSpaces l) ++ rest ∧ isSym [' '] rest.head? = false := by
    intro l
    induction l with
    | nil => exact ⟨[], rfl, rfl⟩
    | cons n l ih =>
      rw [leadingSpaces.eq_def]
      split
      · rename_i heq
        cases heq
        obtain ⟨rest, h1, h2⟩ := ih
        refine ⟨rest, ?_, h2⟩
        rw [sp_succ, List.cons_append, ← h1]
        rfl
      · rename_i hne
        refine ⟨n :: l, rfl, ?_⟩
        cases h : isSym [' '] (n :: l).head? with
        | false => rfl
        | true =>
          have := isSym_true h
          simp only [List.head?_cons, Option.some.injEq] at this
          exact absurd (by rw [this]) (hne l)
  obtain ⟨rest, h1, h2⟩ := key (row.drop pos)
  exact ⟨_, rest, h1, h2, rfl⟩

open Classical in
/-- All rules of a role that can start at a place are in one module. -/
theorem one_module (hx : x.Usual) (hall : Spread all v) (hne : all ≠ []) (role : Role) (rest : Row) :
    ∃ k ∈ all, ∀ k' ∈ all, k' ≠ k → modRules b x role rest k' = [] := by
  by_cases h : ∃ k ∈ all, modRules b x role rest k ≠ []
  · obtain ⟨k, hk, hn⟩ := h
    refine ⟨k, hk, fun k' hk' hne => ?_⟩
    rw [List.eq_nil_iff_forall_not_mem]
    intro r' hr'
    obtain ⟨r, hr⟩ := List.exists_mem_of_ne_nil _ hn
    obtain ⟨h1, h2, h3⟩ := mem_modRules.1 hr
    obtain ⟨h1', h2', h3'⟩ := mem_modRules.1 hr'
    have hc := fits_headsClash hx (starts_fits (x := x) rfl h3) (starts_fits (x := x) rfl h3')
    rcases hall.own k hk k' hk' with h | h
    · exact hne h.symm
    · rcases h r h1 r' h1' with h | h | h
      · rw [h2] at h; cases h
      · exact h (h2.trans h2'.symm)
      · rw [hc] at h; cases h
  · cases all with
    | nil => exact absurd rfl hne
    | cons k all =>
      refine ⟨k, List.mem_cons_self .., fun k' hk' _ => ?_⟩
      by_contra hn
      exact h ⟨k', hk', hn⟩

open Classical in
/-- What is found for a role at a place comes from one module, if that is there. -/
theorem iter_one (hx : x.Usual) (hall : Spread all v) (hne : all ≠ []) {row rest : Row} {pos i : Nat}
    (hd : row.drop pos = sp i ++ rest) (hs : isSym [' '] rest.head? = false) (role : Role) :
    ∃ k ∈ all, ∀ (M : List (List Rule)) (call : Rec), (∀ k ∈ M, k ∈ all) →
      parseIter call (withModules b x M) row pos ((withModules b x M).ofRole role) =
        if k ∈ M then parseIter call (withModules b x []) row pos (modRules b x role rest k)
        else .ok none := by
  obtain ⟨k, hk, ho⟩ := one_module (b := b) hx hall hne role rest
  refine ⟨k, hk, fun M call hM => ?_⟩
  rw [parseIter_starts hd hs, ofRole_blocks, parseIter_modules (M' := []),
    parseIter_blocks (A := modRules b x role rest k)]
  · by_cases hkM : k ∈ M
    · rw [if_pos hkM, if_pos]
      exact List.mem_map.2 ⟨k, List.mem_reverse.2 hkM, rfl⟩
    · rw [if_neg hkM]
      split
      · rename_i hmem
        obtain ⟨k', hk', he⟩ := List.mem_map.1 hmem
        have hk' := List.mem_reverse.1 hk'
        rw [← he, ho k' (hM k' hk') (by rintro rfl; exact hkM hk')]
        rfl
      · rfl
  · intro B hB
    obtain ⟨k', hk', rfl⟩ := List.mem_map.1 hB
    have hk' := List.mem_reverse.1 hk'
    by_cases he : k' = k
    · exact .inr (by rw [he])
    · exact .inl (ho k' (hM k' hk') he)

theorem sameIter_of_same (hx : x.Usual) (hall : Spread all v) (hne : all ≠ [])
    (hM : ∀ k ∈ M, k ∈ all) (h : ∀ k, k ∈ M ↔ k ∈ M') :
    SameIter b x.start x.continue_ M M' := by
  intro call row pos role
  obtain ⟨i, rest, hd, hs, -⟩ := exists_spaces row pos
  obtain ⟨k, -, hk⟩ := iter_one (b := b) hx hall hne hd hs role
  have h1 := hk M call hM
  have h2 := hk M' call fun k hk' => hM k ((h k).2 hk')
  simp only [h k] at h1
  exact h1.trans h2.symm

end Aftermath
