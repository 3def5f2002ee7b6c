import Verif.Spec.Subst

/-! # Lemmas for C110 -/

namespace Aftermath

variable {x : Xid} {σ : Char → Option Row} {τ : Char → Option Formula}

theorem substRow_append (r s : Row) : substRow σ (r ++ s) = substRow σ r ++ substRow σ s := by
  induction r with
  | nil => rfl
  | cons n ns ih => simp only [List.cons_append, substRow, ih, List.append_assoc]

theorem substCells_map (cells : List Row) : substCells σ cells = cells.map (substRow σ) := by
  induction cells with
  | nil => rfl
  | cons r rs ih => simp only [substCells, List.map_cons, ih]

theorem subst_sy (c : Char) (h : σ c = none) : (sy c).subst σ = [sy c] := by
  simp only [sy, Node.subst, h]

theorem substRow_cons_sy {c : Char} (h : σ c = none) (r : Row) :
    substRow σ (sy c :: r) = sy c :: substRow σ r := by
  simp only [substRow, subst_sy c h, List.cons_append, List.nil_append]

theorem substRow_text (s : List Char) (h : ∀ c ∈ s, σ c = none) :
    substRow σ (s.map sy) = s.map sy := by
  induction s with
  | nil => rfl
  | cons c s ih =>
    rw [List.map_cons, substRow_cons_sy (h c List.mem_cons_self),
      ih fun d hd => h d (List.mem_cons_of_mem _ hd)]

theorem substRow_container (v : Variant) (cells : List Row) (w : Nat) (r : Row) :
    substRow σ (.container v cells w :: r) =
      .container v (cells.map (substRow σ)) w :: substRow σ r := by
  simp only [substRow, Node.subst, substCells_map, List.cons_append, List.nil_append]

namespace Replaces

/-- Characters that cannot start a name stay. -/
theorem stays (h : Replaces x σ τ) {c : Char} (hc : x.start c = false) : σ c = .none := by
  cases hs : σ c with
  | none => rfl
  | some q =>
    have := (h.letter c (by rw [hs]; rfl)).1
    rw [hc] at this
    cases this

theorem reserved (h : Replaces x σ τ) (hx : x.Usual) {c : Char} (hc : c ∈ reservedChars) :
    σ c = .none :=
  h.stays (hx.reserved c hc).1

theorem alone (h : Replaces x σ τ) {c : Char} (hc : ¬ (τ c).isSome = true) : σ c = .none :=
  (h.none c).2 (by simpa using hc)

theorem spaces (h : Replaces x σ τ) (hx : x.Usual) (j : Nat) : substRow σ (sp j) = sp j := by
  have := substRow_text (σ := σ) (List.replicate j ' ') fun c hc => by
    rw [List.eq_of_mem_replicate hc]
    exact h.reserved hx (by decide)
  simpa [sp] using this

theorem brackets (h : Replaces x σ τ) (hx : x.Usual) (r : Row) :
    substRow σ (inBrackets r) = inBrackets (substRow σ r) := by
  unfold inBrackets
  rw [List.cons_append, substRow_cons_sy (h.reserved hx (by decide)), substRow_append,
    substRow_cons_sy (h.reserved hx (by decide))]
  rfl

theorem op (h : Replaces x σ τ) (hx : x.Usual) {sign : List Char} (hs : ∀ c ∈ sign, σ c = .none)
    {ss : List (ScriptKind × Row)} {w : Row} (hw : WritesOp sign ss w) :
    WritesOp sign (ss.map fun s => (s.1, substRow σ s.2)) (substRow σ w) := by
  induction hw with
  | sign j =>
    rw [substRow_append, substRow_text _ hs, h.spaces hx]
    exact .sign j
  | script j _ ih =>
    rw [substRow_append, substRow_container, h.spaces hx, List.map_append]
    exact .script j ih

end Replaces

theorem escapes_mem {s t : List Char} (h : Escapes s t) : ∀ c ∈ t, c ∈ s ∨ c = '\\' := by
  induction h with
  | nil => intro c hc; cases hc
  | plain _ _ _ ih =>
    intro c hc
    rcases List.mem_cons.1 hc with rfl | hc
    · exact .inl List.mem_cons_self
    · exact (ih c hc).imp_left (List.mem_cons_of_mem _)
  | escaped _ ih =>
    intro c hc
    rcases List.mem_cons.1 hc with rfl | hc
    · exact .inr rfl
    rcases List.mem_cons.1 hc with rfl | hc
    · exact .inl List.mem_cons_self
    · exact (ih c hc).imp_left (List.mem_cons_of_mem _)

/-- No text without a bracket arises at the start. -/
theorem prefix_subst {s : List Char} (hs : '(' ∉ s) : ∀ {r : Row},
    (s.map sy).isPrefixOf (substRow σ r) = true → (s.map sy).isPrefixOf r = true := by
  induction s with
  | nil => intro r _; simp
  | cons c s ih =>
    intro r h
    rw [List.mem_cons, not_or] at hs
    cases r with
    | nil => simp [substRow] at h
    | cons n r =>
      rw [List.isPrefixOf_iff_prefix] at h ⊢
      rw [List.map_cons] at h ⊢
      have key : ∀ n', n.subst σ = [n'] → (∀ d, n' = sy d → n = sy d) → sy c :: s.map sy <+: n :: r := by
        intro n' h1 h2
        rw [substRow, h1, List.cons_append, List.nil_append, List.cons_prefix_cons] at h
        obtain ⟨h3, h4⟩ := h
        rw [← h2 c h3.symm, List.cons_prefix_cons]
        exact ⟨rfl, List.isPrefixOf_iff_prefix.1 (ih hs.2 (List.isPrefixOf_iff_prefix.2 h4))⟩
      match n with
      | .container v cells w =>
        exact key _ rfl (by intro d hd; simp [sy] at hd)
      | .symbol [] => exact key _ rfl (by intro d hd; exact hd)
      | .symbol (a :: b :: t) => exact key _ rfl (by intro d hd; exact hd)
      | .symbol [a] =>
        cases hσ : σ a with
        | none => exact key (.symbol [a]) (by simp only [Node.subst, hσ]) (fun d hd => hd)
        | some q =>
          simp only [substRow, Node.subst, hσ, inBrackets, List.cons_append,
            List.cons_prefix_cons] at h
          simp [sy] at h
          exact absurd h.1.symm hs.1

theorem joins_subst {o : PreOp} {r : Row} (h : o.joins r = false) : o.joins (substRow σ r) = false := by
  cases o with
  | lim =>
    simp only [PreOp.joins, Bool.or_eq_false_iff] at h ⊢
    refine ⟨?_, ?_⟩
    · cases h1 : (PreOp.limSup.text.map sy).isPrefixOf (substRow σ r) with
      | false => rfl
      | true => rw [prefix_subst (by decide) h1] at h; exact absurd h.1 (by simp)
    · cases h1 : (PreOp.limInf.text.map sy).isPrefixOf (substRow σ r) with
      | false => rfl
      | true => rw [prefix_subst (by decide) h1] at h; exact absurd h.2 (by simp)
  | _ => rfl

/-- Replacing variables in a row, each by a row in brackets, replaces them in the formula. -/
theorem writes_subst (hx : x.Usual) (h : Replaces x σ τ) {e : Formula} {l r : Nat} {row : Row}
    (he : e.Writes x l r row) (ha : e.Alone fun c => (τ c).isSome = true) :
    (e.subst τ).Writes x l r (substRow σ row) := by
  induction he with
  | @number l r s hs =>
    rw [substRow_text]
    · exact .number hs
    · intro c hc
      have : c.isDigit = true ∨ c = '.' := by
        cases hs with
        | whole hd => exact .inl (hd.2 c hc)
        | decimal hc1 hc2 =>
          rcases List.mem_append.1 hc with hc | hc
          · exact .inl (hc1.2 c hc)
          · rcases List.mem_cons.1 hc with rfl | hc
            · exact .inr rfl
            · exact .inl (hc2.2 c hc)
      rcases this with hd | rfl
      · exact h.stays (hx.digits c hd)
      · exact h.reserved hx (by decide)
  | @«variable» l r s hs =>
    have other : (∀ c ∈ s, σ c = none) →
        (Formula.variable s).Writes x l r (substRow σ (s.map sy)) := by
      intro h1
      rw [substRow_text s h1]
      exact .variable hs
    rcases ha with ⟨c, rfl⟩ | ha
    · cases hτ : τ c with
      | none =>
        simp only [Formula.subst, hτ, Option.getD_none]
        refine other fun d hd => ?_
        rw [List.mem_singleton.1 hd]
        exact (h.none c).2 hτ
      | some f =>
        cases hσ : σ c with
        | none => rw [(h.none c).1 hσ] at hτ; cases hτ
        | some q =>
          simp only [Formula.subst, hτ, Option.getD_some, List.map_cons, List.map_nil, sy,
            substRow, Node.subst, hσ, List.append_nil]
          exact .brackets (h.writes c q f hσ hτ)
    · have h1 := other fun c hc => h.alone (ha c hc)
      match s, hs, ha, h1 with
      | [], _, _, h1 => exact h1
      | [c], _, ha, h1 =>
        have : τ c = none := by simpa using ha c (List.mem_singleton_self c)
        simp only [Formula.subst, this, Option.getD_none]
        exact h1
      | _ :: _ :: _, _, _, h1 => exact h1
  | @constant l r k =>
    rw [substRow_cons_sy (h.reserved hx (by cases k <;> decide))]
    exact .constant
  | @string l r s t hs =>
    have : substRow σ (sy '"' :: t.map sy ++ [sy '"']) = sy '"' :: t.map sy ++ [sy '"'] := by
      have hq : σ '"' = none := h.reserved hx (by decide)
      rw [substRow_append, substRow_cons_sy hq, substRow_text, substRow_cons_sy hq]
      · rfl
      · intro c hc
        rcases escapes_mem hs c hc with h1 | rfl
        · exact h.alone (ha c h1)
        · cases h2 : σ '\\' with
          | none => rfl
          | some q => exact absurd rfl (h.letter _ (by rw [h2]; rfl)).2
    rw [this]
    exact .string hs
  | @bin l r a b p w q o n ks ss rows hl hr _ hw _ _ iha ihs ihb =>
    obtain ⟨h1, h2, h3⟩ := ha
    rw [substRow_append, substRow_append]
    have hop := h.op hx (sign := [o.char]) (fun c hc => by
      rw [List.mem_singleton.1 hc]
      exact h.reserved hx (by cases o <;> decide)) hw
    rw [List.map_ofFn] at hop
    exact .bin hl hr (iha h2) hop (fun i => ihs i (h1 i)) (ihb h3)
  | @pre l r a w q o n ks ss rows hr hw _ _ hj ihs iha =>
    obtain ⟨h0, h1, h2⟩ := ha
    have hj' := joins_subst (σ := σ) hj
    rw [substRow_append] at hj' ⊢
    have hop := h.op hx (sign := o.text) (fun c hc => h.alone (h0 c hc)) hw
    rw [List.map_ofFn] at hop
    exact .pre hr hop (fun i => ihs i (h1 i)) (iha h2) hj'
  | @post l r a p o _ iha =>
    rw [substRow_append, substRow_cons_sy (h.reserved hx (by cases o <;> decide))]
    exact .post (iha ha)
  | script _ _ iha ihb =>
    rw [substRow_append, substRow_container]
    exact .script (iha ha.1) (ihb ha.2)
  | apply _ _ iha ihb =>
    rw [substRow_append, h.brackets hx]
    exact .apply (iha ha.1) (ihb ha.2)
  | call _ iha =>
    rw [substRow_append, h.brackets hx]
    exact .call (iha ha)
  | unit =>
    rw [h.brackets hx]
    exact .unit
  | fraction _ _ iha ihb =>
    rw [substRow_container]
    exact .fraction (iha ha.1) (ihb ha.2)
  | root _ _ iha ihb =>
    rw [substRow_container]
    exact .root (iha ha.1) (ihb ha.2)
  | table hw hn hm _ ih =>
    rw [substRow_container, List.map_ofFn]
    exact .table hw hn hm fun i => ih i (ha i)
  | brackets _ ih =>
    rw [h.brackets hx]
    exact .brackets (ih ha)
  | before _ ih =>
    rw [substRow_cons_sy (h.reserved hx (by decide))]
    exact .before (ih ha)
  | after _ ih =>
    rw [substRow_append, substRow_cons_sy (h.reserved hx (by decide))]
    exact .after (ih ha)

end Aftermath
