import Verif.Proof.Effort

/-! # The effort of parsing rows with errors

Without opening brackets nothing is read twice except for infix operators, so the bound for rows without
errors holds for all rows. A call for a missing operator is paid for by the token before the gap. -/

namespace Aftermath

variable {x : Xid} {g : Grammar} {m : NameMap}

open Classical in
/-- What is left over from the token before a gap. -/
noncomputable def credit (g : Grammar) (row : Row) (pos : Nat) : Nat :=
  if NoneOf g .infix row pos ∧ NoneOf g .postfix row pos then 1 else 0

/-- See `credit`; nothing is left over if the parser stops. -/
noncomputable def PResult.credit (g : Grammar) (row : Row) (p : Nat) : PResult → Nat
  | .expression _ => Aftermath.credit g row p
  | .stop _ => 0

theorem credit_le (g : Grammar) (row : Row) (pos : Nat) : credit g row pos ≤ 1 := by
  unfold credit
  split <;> omega

/-- The bound for calls of depth `F`. -/
def FreeBounded (g : Grammar) (F : Nat) : Prop :=
  ∀ {row : Row} {pos : Nat} {min : Power} {e : Ending} {res : PResult} {p : Nat},
    rowWf row = true → pos ≤ row.length → restWeight row pos < F → BracketFree row →
    ¬ OperatorScript row → min.1 ≤ 400 → pratt g F row pos min e = .ok (res, p) →
    prattEffort g F row pos min e + restWeight row p + res.credit g row p ≤ 1 + restWeight row pos

/-- What is known of the row. -/
structure Free (x : Xid) (g : Grammar) (m : NameMap) (row : Row) (F : Nat) : Prop where
  std : Std x g m
  bounded : FreeBounded g F
  wf : rowWf row = true
  free : BracketFree row
  scripts : ¬ OperatorScript row

theorem free_cell {row : Row} {i w : Nat} {v : Variant} {cells : List Row}
    (hi : row[i]? = some (.container v cells w)) {c : Row} (hc : c ∈ cells)
    (h : BracketFree row) : BracketFree c := by
  intro p r k hp
  obtain ⟨j, hj⟩ := List.mem_iff_getElem?.1 hc
  exact h ((i, j) :: p) r k (by rw [rowAt, hi]; simp only [hj, hp])

theorem Free.deep {row : Row} {F pos : Nat} (h : Free x g m row F) (hp : pos ≤ row.length)
    (hw : restWeight row pos ≤ F) : Deep g row pos F := ⟨h.std.good, h.wf, hp, hw⟩

theorem Free.cells {row : Row} {F pos : Nat} (hf : Free x g m row F) (hp : restWeight row pos ≤ F) :
    CellsBound (prattEffort g F) row pos := by
  intro i v cells w hi hc
  have hweight : cellsWeight cells < F := by
    have h1 := restWeight_of_get hc
    have h2 := restWeight_le row hi
    simp only [Node.weight] at h1
    omega
  have hwf := rowWf_get hf.wf hc
  simp only [Node.wf, Bool.and_eq_true] at hwf
  have key : ∀ c ∈ cells, prattEffort g F c 0 (0, .weak) .eof ≤ rowWeight c + 1 := by
    intro c hm
    have hlt := cellsWeight_mem hm
    have hw := cellsWf_iff.1 hwf.2 c hm
    have hlt' : restWeight c 0 < F := by simp only [restWeight, List.drop_zero]; omega
    obtain ⟨res, p, hr, -⟩ := (pratt_ok hf.std.good F).2 c 0 (0, .weak) .eof hw (Nat.zero_le _) hlt'
    have hb := hf.bounded hw (Nat.zero_le _) hlt' (free_cell hc hm hf.free)
      (opScript_cell hc hm hf.scripts) (by decide) hr
    simp only [restWeight, List.drop_zero] at hb
    omega
  clear hc hweight hwf
  induction cells with
  | nil => exact Nat.le_refl _
  | cons r rs ih =>
    obtain ⟨h1, h2⟩ := List.forall_mem_cons.1 key
    have := ih h2
    simp only [cellsEffort, cellsWeight]
    omega

theorem Free.noBracket {row : Row} {F : Nat} (hf : Free x g m row F) (role : Role) (pos : Nat) :
    ∀ r ∈ g.ofRole role, NoBracket r row pos := by
  intro r hr n o c hp
  rw [(brackets_only hf.std role r hr n o c hp).1]
  exact hf.free [] row _ rfl

theorem scripts_check {call : Rec} {eff : RecEffort} {row : Row} :
    ∀ n pos, scriptsEffort call eff true g row n pos = 0
  | 0, _ => rfl
  | n + 1, pos => by
    have hc : ∀ v pos, containerEffort eff true v row pos = 0 := by
      intro v pos
      unfold containerEffort
      split <;> simp
    rw [scriptsEffort, hc]
    split
    · rw [scripts_check n]
    · rw [hc]
      split
      · rw [scripts_check n]
      · rfl
    · rfl

theorem rule_check {call : Rec} {eff : RecEffort} {row : Row} {pos : Nat} {r : Rule}
    (hb : NoBracket r row pos) : ruleEffort call eff true g r row pos = 0 := by
  unfold ruleEffort
  split
  · rfl
  · rename_i o p1 h1
    obtain rfl := parseSpaces_pos h1
    have ht : tokenEffort eff true r.parser row (pos + leadingSpaces (row.drop pos)) = 0 := by
      unfold tokenEffort
      split
      · rename_i n o c hp
        unfold bracketsEffort
        split
        · rfl
        · rename_i s p1 hs
          obtain ⟨h1, h2, -⟩ := selectSym_some hs
          rw [eq_of_beq_sym h2] at h1
          exact absurd h1 (hb n o c hp)
      · unfold containerEffort
        split <;> simp
      · rfl
    rw [ht]
    split
    · split
      · rfl
      · split
        · rw [scripts_check]
        · rfl
    · rfl

/-- Asking costs nothing. -/
theorem iter_check {call : Rec} {eff : RecEffort} {row : Row} {pos : Nat} : ∀ {rs : List Rule},
    (∀ r ∈ rs, NoBracket r row pos) → iterEffort call eff true g row pos rs = 0
  | [], _ => rfl
  | r :: rs, hb => by
    rw [iterEffort, rule_check (hb r (List.mem_cons_self ..))]
    split
    · rw [iter_check fun r hr => hb r (List.mem_cons_of_mem _ hr)]
    · rfl

theorem Free.can {row : Row} {F : Nat} (hf : Free x g m row F) (role : Role) (pos : Nat)
    {call : Rec} {eff : RecEffort} : canEffort call eff g row pos (g.ofRole role) = 0 :=
  iter_check (hf.noBracket role pos)

theorem Free.either {row : Row} {F : Nat} (hf : Free x g m row F) (role role' : Role) (pos : Nat)
    {call : Rec} {eff : RecEffort} :
    eitherEffort call eff g row pos (g.ofRole role) (g.ofRole role') = 0 := by
  rw [eitherEffort, hf.can, hf.can]
  split <;> rfl

theorem Free.stops {row : Row} {F : Nat} (hf : Free x g m row F) (pos : Nat) (e : Ending)
    {call : Rec} {eff : RecEffort} : stopsEffort call eff g row pos e = 0 := by
  have h1 := hf.can .prefix pos (call := call) (eff := eff)
  have h2 := hf.can .atom pos (call := call) (eff := eff)
  have h3 := hf.can .infix pos (call := call) (eff := eff)
  have h4 := hf.can .postfix pos (call := call) (eff := eff)
  simp only [Grammar.ofRole] at h1 h2 h3 h4
  rw [stopsEffort, h1, h2, h3, h4]
  repeat' split
  all_goals rfl

theorem Free.unknownLoop {row : Row} {F : Nat} (hf : Free x g m row F) (e : Ending)
    {call : Rec} {eff : RecEffort} : ∀ n pos, unknownLoopEffort call eff g row e n pos = 0
  | 0, _ => rfl
  | n + 1, pos => by
    rw [unknownLoopEffort, hf.stops]
    split
    · rw [hf.unknownLoop e n]
    · rfl

theorem Free.unknown {row : Row} {F : Nat} (hf : Free x g m row F) (pos : Nat) (e : Ending)
    {call : Rec} {eff : RecEffort} : unknownEffort call eff g row e pos = 0 :=
  hf.unknownLoop e _ _

theorem Free.none {row : Row} {F pos : Nat} (hf : Free x g m row F) {role : Role}
    {call : Rec} {eff : RecEffort} {check : Bool}
    (h : parseIter call g row pos (g.ofRole role) = .ok none) :
    iterEffort call eff check g row pos (g.ofRole role) = 0 :=
  iterEffort_none (parseIter_none.1 h) (hf.noBracket role pos)

theorem scripts_symbols (S : Std x g m) {role : Role} {r : Rule} (hm : r ∈ g.ofRole role)
    (hk : r.kind.takesScripts = true) : ∃ s ss ty, r.parser = .symbols (s :: ss) ty := by
  have key : ∀ l ∈ [shippedAtoms, shippedPrefixes, shippedInfixes, shippedPostfixes], ∀ r ∈ l,
      (!r.kind.takesScripts || (match r.parser with
        | .symbols (_ :: _) _ => true
        | _ => false)) = true := by decide +kernel
  have hmem : ∃ l ∈ [shippedAtoms, shippedPrefixes, shippedInfixes, shippedPostfixes], r ∈ l := by
    cases role with
    | atom => exact ⟨shippedAtoms, by simp, by rwa [Grammar.ofRole, S.atoms] at hm⟩
    | «prefix» => exact ⟨shippedPrefixes, by simp, by rwa [Grammar.ofRole, S.prefixes] at hm⟩
    | «infix» => exact ⟨shippedInfixes, by simp, by rwa [Grammar.ofRole, S.infixes] at hm⟩
    | «postfix» => exact ⟨shippedPostfixes, by simp, by rwa [Grammar.ofRole, S.postfixes] at hm⟩
  obtain ⟨l, hl', hr'⟩ := hmem
  have := key l hl' r hr'
  rw [hk] at this
  simp only [Bool.not_true, Bool.false_or] at this
  split at this
  · exact ⟨_, _, _, by assumption⟩
  · cases this

/-- A token that is read costs less than it weighs. -/
theorem Free.some {row : Row} {F pos p : Nat} (hf : Free x g m row F) {role : Role} {t : SNode}
    {r : Rule} (hp : pos ≤ row.length) (hw : restWeight row pos ≤ F)
    (h : parseIter (pratt g F) g row pos (g.ofRole role) = .ok (some (t, r, p))) :
    iterEffort (pratt g F) (prattEffort g F) false g row pos (g.ofRole role) + restWeight row p + 1 ≤
      restWeight row pos ∧ pos < p ∧ p ≤ row.length ∧ r ∈ g.ofRole role := by
  obtain ⟨o, ho, hk, -⟩ := parseIter_ok (pratt_ok hf.std.good F) g hf.wf hp hw
    (hf.std.good.ofRole role)
  rw [h] at ho
  cases ho
  obtain ⟨hfills, hlt, hmem⟩ := hk _ _ _ rfl
  refine ⟨?_, hlt, hfills.le.2, hmem⟩
  obtain ⟨a, b, hl, ha, hr⟩ := parseIter_some.1 h
  have hno := hf.noBracket role pos
  have hb := hno r hmem
  rw [hl] at hno ⊢
  rw [iterEffort_some ha (fun r hr => hno r (List.mem_append_left _ hr)) hr]
  refine rule_bound (hf.cells hw) ?_ (scripts_symbols hf.std hmem) hlt hfills.le.2 hr
  intro n o c hpar
  obtain ⟨before, p1, c', p2, after, p3, h1, h2, -⟩ := ruleParse_steps hr
  rw [hpar, parseSpaces_pos h1] at h2
  obtain ⟨child, q', k1, -⟩ := brackets_inv h2
  exact absurd k1 (hb n o c hpar)

theorem Free.infix {row : Row} {F pos p : Nat} (hf : Free x g m row F) {call : Rec} {eff : RecEffort}
    {t : SNode} {r : Rule} (h : parseIter call g row pos g.infixes = .ok (Option.some (t, r, p)))
    (hmem : r ∈ g.infixes) : iterEffort call eff false g row pos g.infixes = 0 := by
  obtain ⟨a, b, hl, ha, hr⟩ := parseIter_some.1 h
  have hno := hf.noBracket .infix pos
  simp only [Grammar.ofRole] at hno
  rw [hl] at hno ⊢
  rw [iterEffort_some ha (fun r hr => hno r (List.mem_append_left _ hr)) hr]
  obtain ⟨o, rfl⟩ : ∃ o : BinOp, r = o.rule := by
    rw [hf.std.infixes] at hmem
    exact infix_op hmem
  obtain ⟨before, p1, c, p2, after, p3, h1, h2, h3, -, -⟩ := ruleParse_steps hr
  obtain ⟨i, hcut1, -⟩ := parseSpaces_cut h1
  obtain ⟨k, hcut3, -⟩ := parseSpaces_cut h3
  have hcut2 := symbols_inv h2
  have hget : row[p1]? = .some (.symbol [o.char]) := by
    have := congrArg List.head? hcut2.eq
    rw [List.head?_drop] at this
    exact this
  have hp2 : p2 = p1 + 1 := hcut2.len
  simp only [ruleEffort, h1, h2, h3]
  have hts : o.rule.kind.takesScripts = true := rfl
  rw [if_pos hts, scriptsEffort_zero]
  · rfl
  · intro n hn hs
    have hp3 : p3 = p1 + 1 + k := by rw [hcut3.len, hp2]; simp [sp]
    refine hf.scripts ⟨[], row, p1, k, n, o, rfl, hget, fun j hj => ?_, by rw [← hp3]; exact hn, hs⟩
    have := congrArg (·[j]?) hcut3.eq
    simp only [List.getElem?_drop, hp2] at this
    rw [this, List.getElem?_append_left (by simpa [sp] using hj)]
    simp [sp, sy, hj]

/-! ## The credit -/

theorem credit_zero {row : Row} {F pos : Nat} (hd : Deep g row pos F) {y : SNode × Rule × Nat}
    (h : parseIter (pratt g F) g row pos g.infixes = .ok (some y) ∨
      parseIter (pratt g F) g row pos g.postfixes = .ok (some y)) : credit g row pos = 0 := by
  unfold credit
  rw [if_neg]
  rintro ⟨h1, h2⟩
  have h1 := h1.at hd
  have h2 := h2.at hd
  simp only [Grammar.ofRole] at h1 h2
  rcases h with h | h
  · rw [h1] at h; cases h
  · rw [h2] at h; cases h

theorem noneOf_of {row : Row} {F pos : Nat} {role : Role}
    (h : parseIter (pratt g F) g row pos (g.ofRole role) = .ok none) : NoneOf g role row pos :=
  fun r hr hrole => ⟨F, parseIter_none.1 h r (mem_ofRole.2 ⟨hr, hrole⟩)⟩

theorem credit_one {row : Row} {F pos : Nat}
    (h1 : parseIter (pratt g F) g row pos g.infixes = .ok none)
    (h2 : parseIter (pratt g F) g row pos g.postfixes = .ok none) : credit g row pos = 1 := by
  unfold credit
  rw [if_pos ⟨noneOf_of (role := .infix) h1, noneOf_of (role := .postfix) h2⟩]

/-! ## The bound -/

theorem unknown_reads {row : Row} {F pos : Nat} (hf : Free x g m row F) {e : Ending}
    (hp : pos ≤ row.length) (hw : restWeight row pos ≤ F)
    (h1 : parseIter (pratt g F) g row pos g.prefixes = .ok none)
    (h2 : parseIter (pratt g F) g row pos g.atoms = .ok none)
    (h3 : parseIter (pratt g F) g row pos g.infixes = .ok none)
    (h4 : parseIter (pratt g F) g row pos g.postfixes = .ok none)
    (he : isAtEnd row pos e = false) :
    ∃ t p, parseUnknown (pratt g F) g row e pos = .ok (t, p) ∧ pos < p ∧ p ≤ row.length := by
  have hc := pratt_ok hf.std.good F
  obtain ⟨s, hs⟩ := symbol_of_none hc hf.std.good hf.wf (not_isAtEnd he) hw h1 h2 h3 h4
  obtain ⟨t, p, ht, htf, hlt⟩ := parseUnknown_ok hc hf.std.good e hf.wf hs hw
  exact ⟨t, p, ht, hlt, htf.le.2⟩

theorem either_false {call : Rec} {row : Row} {pos : Nat} {rs rs' : List Rule}
    {o o' : Option (SNode × Rule × Nat)} (h : parseIter call g row pos rs = .ok o)
    (h' : parseIter call g row pos rs' = .ok o') :
    canParseEither call g row pos rs rs' = .ok (o.isSome || o'.isSome) := by
  simp only [canParseEither, canParse_of h, canParse_of h', M.ok_bind]
  cases o <;> rfl

theorem free_call {row : Row} {F pos p : Nat} (hf : Free x g m row F) {min : Power} {e : Ending}
    {res : PResult} (hp : pos ≤ row.length) (hw : restWeight row pos < F) (hm : min.1 ≤ 400)
    (h : pratt g F row pos min e = .ok (res, p)) :
    prattEffort g F row pos min e + restWeight row p + res.credit g row p ≤ 1 + restWeight row pos ∧
      pos ≤ p ∧ p ≤ row.length := by
  obtain ⟨res', p', h', hg⟩ := (pratt_ok hf.std.good F).2 row pos min e hf.wf hp hw
  rw [h] at h'
  cases h'
  exact ⟨hf.bounded hf.wf hp hw hf.free hf.scripts hm h, hg.fills.le⟩

theorem free_loop {row : Row} {F : Nat} {e : Ending} {min : Power} (hf : Free x g m row F)
    (hm : min.1 ≤ 400) :
    ∀ (n : Nat) {left : SNode} {pos p : Nat} {res : PResult}, pos ≤ row.length →
    restWeight row pos ≤ F → (credit g row pos = 1 → restWeight row pos < F) →
    prattLoop (pratt g F) g row min e n left pos = .ok (res, p) →
    loopEffort (pratt g F) (prattEffort g F) g row min e n pos + restWeight row p + res.credit g row p ≤
      restWeight row pos + credit g row pos
  | 0, _, _, _, _, _, _, _, h => by cases h
  | n + 1, left, pos, p, res, hp, hw, hgap, h => by
    have hd := hf.deep hp hw
    have hc := pratt_ok hf.std.good F
    obtain ⟨o1, h1, hk1, -⟩ := parseIter_ok hc g hf.wf hp hw hf.std.good.prefixes
    obtain ⟨o2, h2, hk2, -⟩ := parseIter_ok hc g hf.wf hp hw hf.std.good.atoms
    obtain ⟨o3, h3, -, -⟩ := parseIter_ok hc g hf.wf hp hw hf.std.good.infixes
    obtain ⟨o4, h4, -, -⟩ := parseIter_ok hc g hf.wf hp hw hf.std.good.postfixes
    rw [prattLoop] at h
    rw [loopEffort]
    cases hend : atInputEnd row pos with
    | true =>
      simp only [hend, if_true] at h ⊢
      cases h
      simp only [PResult.credit]
      omega
    | false =>
    simp only [hend, Bool.false_eq_true, if_false, h3, M.ok_bind] at h ⊢
    cases o3 with
    | some y =>
      obtain ⟨op, r, p1⟩ := y
      obtain ⟨hb, hlt, hle, hmem⟩ := hf.some (role := .infix) hp hw h3
      have e1 := hf.infix (eff := prattEffort g F) h3 hmem
      have hcr := credit_zero hd (.inl h3)
      simp only [Grammar.ofRole, e1] at hb hmem
      simp only [e1, Nat.zero_add, hcr]
      dsimp only at h
      cases hls : r.kind.strengthLeft.lt min with
      | true =>
        simp only [hls, if_true] at h ⊢
        cases h
        simp only [PResult.credit, hcr]
        omega
      | false =>
        simp only [hls, Bool.false_eq_true, if_false] at h ⊢
        obtain ⟨⟨right, p2⟩, hcall, h⟩ := M.bind_eq_ok.1 h
        obtain ⟨t, -, h⟩ := M.bind_eq_ok.1 h
        obtain ⟨hb2, hle2, hle3⟩ := free_call hf hle (by omega) (infix_right hf.std hmem) hcall
        simp only [hcall]
        cases right with
        | stop _ =>
          cases h
          simp only [PResult.credit] at hb2 ⊢
          omega
        | expression t1 =>
          simp only [PResult.credit] at hb2
          have hw2 := restWeight_le row hle2
          have := free_loop hf hm n hle3 (by omega) (fun _ => by omega) h
          dsimp only
          omega
    | none =>
      have e3 := hf.none (role := .infix) (eff := prattEffort g F) (check := false) h3
      simp only [Grammar.ofRole] at e3
      simp only [h4, M.ok_bind] at h
      simp only [e3, h4, Nat.zero_add]
      cases o4 with
      | some y =>
        obtain ⟨op, r, p1⟩ := y
        obtain ⟨hb, hlt, hle, hmem⟩ := hf.some (role := .postfix) hp hw h4
        have hcr := credit_zero hd (.inr h4)
        simp only [Grammar.ofRole] at hb hmem
        have hls := postfix_binds hf.std hmem hm
        simp only [hls, Bool.false_eq_true, if_false] at h ⊢
        obtain ⟨t, -, h⟩ := M.bind_eq_ok.1 h
        have := free_loop hf hm n hle (by omega) (fun _ => by omega) h
        have := credit_le g row p1
        omega
      | none =>
        have e4 := hf.none (role := .postfix) (eff := prattEffort g F) (check := false) h4
        have e5 := hf.either .prefix .atom pos (call := pratt g F) (eff := prattEffort g F)
        simp only [Grammar.ofRole] at e4 e5
        have hcr := credit_one h3 h4
        have hlt := hgap hcr
        have he := either_false h1 h2
        simp only [he, M.ok_bind] at h
        simp only [e4, e5, he, Nat.zero_add, hcr]
        cases hb : o1.isSome || o2.isSome with
        | true =>
          simp only [hb, if_true] at h
          dsimp only
          cases hls : missingOperatorKind.strengthLeft.lt min with
          | true =>
            simp only [hls, if_true] at h ⊢
            cases h
            simp only [PResult.credit, hcr]
            omega
          | false =>
            simp only [hls, Bool.false_eq_true, if_false] at h ⊢
            obtain ⟨⟨right, p2⟩, hcall, h⟩ := M.bind_eq_ok.1 h
            obtain ⟨t, -, h⟩ := M.bind_eq_ok.1 h
            obtain ⟨hb2, hle2, hle3⟩ := free_call hf hp hlt (by decide) hcall
            simp only [hcall]
            cases right with
            | stop _ =>
              cases h
              simp only [PResult.credit] at hb2 ⊢
              exact (by omega : prattEffort g F row pos missingOperatorKind.strengthRight e + 0 +
                restWeight row p2 + 0 ≤ restWeight row pos + 1)
            | expression t1 =>
              simp only [PResult.credit] at hb2
              have hw2 := restWeight_le row hle2
              have := free_loop hf hm n hle3 (by omega) (fun _ => by omega) h
              exact (by omega : prattEffort g F row pos missingOperatorKind.strengthRight e +
                loopEffort (pratt g F) (prattEffort g F) g row min e n p2 + restWeight row p +
                res.credit g row p ≤ restWeight row pos + 1)
        | false =>
          simp only [hb, Bool.false_eq_true, if_false] at h
          dsimp only
          cases hae : isAtEnd row pos e with
          | true =>
            simp only [hae, if_true] at h ⊢
            cases h
            simp only [PResult.credit]
            omega
          | false =>
            rw [Bool.or_eq_false_iff, Option.isSome_eq_false_iff, Option.isSome_eq_false_iff,
              Option.isNone_iff_eq_none, Option.isNone_iff_eq_none] at hb
            obtain ⟨rfl, rfl⟩ := hb
            obtain ⟨t, p2, hu, hlt2, hle2⟩ := unknown_reads hf hp hw h1 h2 h3 h4 hae
            simp only [hae, Bool.false_eq_true, if_false, hu, M.ok_bind] at h ⊢
            obtain ⟨t', -, h⟩ := M.bind_eq_ok.1 h
            have hw2 := restWeight_lt row hlt2 hle2
            have := free_loop hf hm n hle2 (by omega) (fun _ => by omega) h
            have := credit_le g row p2
            rw [hf.unknown]
            exact (by omega : 0 + loopEffort (pratt g F) (prattEffort g F) g row min e n p2 +
              restWeight row p + res.credit g row p ≤ restWeight row pos + 1)

theorem freeBounded (S : Std x g m) (F : Nat) : FreeBounded g F := by
  induction F with
  | zero =>
    intro row pos min e _ _ _ _ hw
    omega
  | succ F ih =>
    intro row pos min e res p hwf hp hw hfree hs hm h
    have hf : Free x g m row F := ⟨S, ih, hwf, hfree, hs⟩
    have hw' : restWeight row pos ≤ F := by omega
    have hd := hf.deep hp hw'
    have hc := pratt_ok hf.std.good F
    obtain ⟨o1, h1, hk1, -⟩ := parseIter_ok hc g hf.wf hp hw' hf.std.good.prefixes
    obtain ⟨o2, h2, hk2, -⟩ := parseIter_ok hc g hf.wf hp hw' hf.std.good.atoms
    obtain ⟨o3, h3, -, -⟩ := parseIter_ok hc g hf.wf hp hw' hf.std.good.infixes
    obtain ⟨o4, h4, -, -⟩ := parseIter_ok hc g hf.wf hp hw' hf.std.good.postfixes
    rw [pratt, prattBody] at h
    simp only [prattEffort, bodyEffort]
    obtain ⟨⟨s, p1⟩, hst, h⟩ := M.bind_eq_ok.1 h
    have hst' := hst
    rw [hst]
    unfold prattStart at hst
    unfold startEffort
    cases hend : atInputEnd row pos with
    | true =>
      simp only [hend, if_true] at hst ⊢
      obtain ⟨t, -, hst⟩ := M.bind_eq_ok.1 hst
      cases hst
      cases h
      simp only [PResult.credit]
      omega
    | false =>
    simp only [hend, Bool.false_eq_true, if_false, h1, M.ok_bind] at hst ⊢
    cases o1 with
    | some y =>
      obtain ⟨op, r, q⟩ := y
      obtain ⟨hb, hlt, hle, hmem⟩ := hf.some (role := .prefix) hp hw' h1
      simp only [Grammar.ofRole] at hb hmem
      obtain ⟨⟨right, p2⟩, hcall, hst⟩ := M.bind_eq_ok.1 hst
      obtain ⟨t, -, hst⟩ := M.bind_eq_ok.1 hst
      obtain ⟨hb2, hle2, hle3⟩ := free_call hf hle (by omega) (prefix_right hf.std hmem) hcall
      cases right with
      | stop _ =>
        cases hst
        cases h
        simp only [PResult.credit] at hb2 ⊢
        omega
      | expression t1 =>
        cases hst
        simp only [PResult.credit] at hb2
        have hw2 := restWeight_le row hle2
        have := free_loop hf hm _ hle3 (by omega) (fun _ => by omega) h
        dsimp only
        omega
    | none =>
      have e1 := hf.none (role := .prefix) (eff := prattEffort g F) (check := false) h1
      simp only [Grammar.ofRole] at e1
      simp only [h2, M.ok_bind] at hst
      simp only [e1, h2, Nat.zero_add]
      cases o2 with
      | some y =>
        obtain ⟨op, r, q⟩ := y
        obtain ⟨hb, hlt, hle, hmem⟩ := hf.some (role := .atom) hp hw' h2
        simp only [Grammar.ofRole] at hb
        cases hst
        have := free_loop hf hm _ hle (by omega) (fun _ => by omega) h
        have := credit_le g row p1
        dsimp only
        omega
      | none =>
        have e2 := hf.none (role := .atom) (eff := prattEffort g F) (check := false) h2
        have e3 := hf.either .infix .postfix pos (call := pratt g F) (eff := prattEffort g F)
        simp only [Grammar.ofRole] at e2 e3
        have he := either_false h3 h4
        simp only [he, M.ok_bind] at hst
        simp only [e2, e3, he, Nat.zero_add]
        cases hb : o3.isSome || o4.isSome with
        | true =>
          simp only [hb, if_true] at hst
          obtain ⟨t, -, hst⟩ := M.bind_eq_ok.1 hst
          cases hst
          have hcr : credit g row pos = 0 := by
            rcases Bool.or_eq_true_iff.1 hb with hb | hb
            · obtain ⟨y, rfl⟩ := Option.isSome_iff_exists.1 hb
              exact credit_zero hd (.inl h3)
            · obtain ⟨y, rfl⟩ := Option.isSome_iff_exists.1 hb
              exact credit_zero hd (.inr h4)
          have := free_loop hf hm _ hp hw' (fun h => by omega) h
          dsimp only
          omega
        | false =>
          simp only [hb, Bool.false_eq_true, if_false] at hst
          cases hae : isAtEnd row pos e with
          | true =>
            simp only [hae, if_true] at hst
            obtain ⟨t, -, hst⟩ := M.bind_eq_ok.1 hst
            cases hst
            cases h
            simp only [if_true, PResult.credit]
            omega
          | false =>
            rw [Bool.or_eq_false_iff, Option.isSome_eq_false_iff, Option.isSome_eq_false_iff,
              Option.isNone_iff_eq_none, Option.isNone_iff_eq_none] at hb
            obtain ⟨rfl, rfl⟩ := hb
            obtain ⟨t, p2, hu, hlt2, hle2⟩ := unknown_reads hf hp hw' h1 h2 h3 h4 hae
            simp only [hae, Bool.false_eq_true, if_false, hu, M.ok_bind] at hst
            cases hst
            have hw2 := restWeight_lt row hlt2 hle2
            have := free_loop hf hm _ hle2 (by omega) (fun _ => by omega) h
            have := credit_le g row p1
            simp only [Bool.false_eq_true, if_false]
            rw [hf.unknown]
            omega

end Aftermath
