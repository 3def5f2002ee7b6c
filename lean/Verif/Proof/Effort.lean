import Verif.Model.Effort
import Verif.Spec.Effort
import Verif.Proof.NotationConverse
import Verif.Proof.Nesting

/-! # The effort of parsing a formula without errors -/

namespace Aftermath

variable {x : Xid} {g : Grammar} {m : NameMap} {call : Rec} {eff : RecEffort} {check : Bool}

/-! ## Rules that fail -/

theorem containerEffort_none {v : Variant} {row : Row} {pos : Nat}
    (h : parseContainer call v row pos = .ok none) : containerEffort eff check v row pos = 0 := by
  unfold parseContainer at h
  unfold containerEffort
  split at h
  · rename_i v' cells w hv
    rw [hv]
    dsimp only
    split at h
    · obtain ⟨_, -, h⟩ := M.bind_eq_ok.1 h
      obtain ⟨_, -, h⟩ := M.bind_eq_ok.1 h
      cases h
    · rename_i hne
      rw [if_neg hne]
  · split
    · rename_i hn _ _ _ _ hv
      exact absurd hv (hn _ _ _)
    · rfl

theorem tokenEffort_none {tp : TokenParser} {row : Row} {pos : Nat}
    (h : tokenParse call g tp row pos = .ok none)
    (hb : ∀ n o c, tp = .brackets n o c → row[pos]? ≠ some (.symbol o)) :
    tokenEffort eff check tp row pos = 0 := by
  cases tp with
  | brackets n o c =>
    simp only [tokenEffort, bracketsEffort]
    split
    · rfl
    · rename_i s p1 hs
      obtain ⟨h1, h2, -⟩ := selectSym_some hs
      rw [eq_of_beq_sym h2] at h1
      exact absurd h1 (hb n o c rfl)
  | container v => exact containerEffort_none h
  | _ => rfl

/-- The steps of a rule that is read. -/
theorem ruleParse_steps {r : Rule} {row : Row} {pos p : Nat} {t : SNode}
    (h : ruleParse call g r row pos = .ok (some (t, p))) :
    ∃ before p1 c p2 after p3, parseSpaces g row pos = .ok (before, p1) ∧
      tokenParse call g r.parser row p1 = .ok (some (c, p2)) ∧
      parseSpaces g row p2 = .ok (after, p3) ∧
      (r.kind.takesScripts = false → p = p3) ∧
      (r.kind.takesScripts = true →
        ∃ node, parseScripts call g row (row.length + 1) node p3 = .ok (t, p)) := by
  unfold ruleParse at h
  obtain ⟨⟨before, p1⟩, h1, h⟩ := M.bind_eq_ok.1 h
  obtain ⟨o, h2, h⟩ := M.bind_eq_ok.1 h
  cases o with
  | none => cases h
  | some cp =>
    obtain ⟨c, p2⟩ := cp
    obtain ⟨node, h3, h⟩ := M.bind_eq_ok.1 h
    obtain ⟨⟨after, p3⟩, h4, h⟩ := M.bind_eq_ok.1 h
    obtain ⟨node', h5, h⟩ := M.bind_eq_ok.1 h
    refine ⟨before, p1, c, p2, after, p3, h1, h2, h4, fun hs => ?_, fun hs => ?_⟩
    · simp only [hs, Bool.false_eq_true, if_false] at h
      cases h
      rfl
    · simp only [hs, if_true] at h
      obtain ⟨res, h6, h⟩ := M.bind_eq_ok.1 h
      cases h
      exact ⟨node', h6⟩

theorem ruleParse_none_steps {r : Rule} {row : Row} {pos : Nat}
    (h : ruleParse call g r row pos = .ok none) :
    ∃ before, parseSpaces g row pos = .ok (before, pos + leadingSpaces (row.drop pos)) ∧
      tokenParse call g r.parser row (pos + leadingSpaces (row.drop pos)) = .ok none := by
  unfold ruleParse at h
  obtain ⟨⟨before, p1⟩, h1, h⟩ := M.bind_eq_ok.1 h
  obtain rfl := parseSpaces_pos h1
  obtain ⟨o, h2, h⟩ := M.bind_eq_ok.1 h
  cases o with
  | none => exact ⟨before, h1, h2⟩
  | some cp =>
    obtain ⟨c, p2⟩ := cp
    obtain ⟨node, h3, h⟩ := M.bind_eq_ok.1 h
    obtain ⟨⟨after, p3⟩, h4, h⟩ := M.bind_eq_ok.1 h
    obtain ⟨node', h5, h⟩ := M.bind_eq_ok.1 h
    split at h
    · obtain ⟨res, -, h⟩ := M.bind_eq_ok.1 h
      cases h
    · cases h

/-- The rule is no bracket rule whose bracket comes next. -/
def NoBracket (r : Rule) (row : Row) (pos : Nat) : Prop :=
  ∀ n o c, r.parser = .brackets n o c → row[pos + leadingSpaces (row.drop pos)]? ≠ some (.symbol o)

theorem ruleEffort_none {r : Rule} {row : Row} {pos : Nat}
    (h : ruleParse call g r row pos = .ok none) (hb : NoBracket r row pos) :
    ruleEffort call eff check g r row pos = 0 := by
  obtain ⟨before, h1, h2⟩ := ruleParse_none_steps h
  simp only [ruleEffort, h1, h2, tokenEffort_none h2 hb]

theorem iterEffort_none {row : Row} {pos : Nat} : ∀ {rs : List Rule},
    (∀ r ∈ rs, ruleParse call g r row pos = .ok none) → (∀ r ∈ rs, NoBracket r row pos) →
    iterEffort call eff check g row pos rs = 0
  | [], _, _ => rfl
  | r :: rs, h, hb => by
    rw [iterEffort, h r (List.mem_cons_self ..), ruleEffort_none (h r (List.mem_cons_self ..))
      (hb r (List.mem_cons_self ..))]
    dsimp only
    rw [iterEffort_none (fun r hr => h r (List.mem_cons_of_mem _ hr))
      (fun r hr => hb r (List.mem_cons_of_mem _ hr))]

theorem iterEffort_some {row : Row} {pos p : Nat} {r : Rule} {t : SNode} {b : List Rule} :
    ∀ {a : List Rule}, (∀ r ∈ a, ruleParse call g r row pos = .ok none) →
    (∀ r ∈ a, NoBracket r row pos) → ruleParse call g r row pos = .ok (some (t, p)) →
    iterEffort call eff check g row pos (a ++ r :: b) = ruleEffort call eff check g r row pos
  | [], _, _, h => by
    rw [List.nil_append, iterEffort, h]
    rfl
  | r' :: a, ha, hb, h => by
    rw [List.cons_append, iterEffort, ha r' (List.mem_cons_self ..),
      ruleEffort_none (ha r' (List.mem_cons_self ..)) (hb r' (List.mem_cons_self ..))]
    dsimp only
    rw [iterEffort_some (fun r hr => ha r (List.mem_cons_of_mem _ hr))
      (fun r hr => hb r (List.mem_cons_of_mem _ hr)) h, Nat.zero_add]

theorem canParse_iter {row : Row} {pos : Nat} {rs : List Rule}
    (h : parseIter call g row pos rs = .ok none) : canParse call g row pos rs = .ok false := by
  simp only [canParse, h, M.ok_bind]

theorem canEffort_none {row : Row} {pos : Nat} {rs : List Rule}
    (h : parseIter call g row pos rs = .ok none) (hb : ∀ r ∈ rs, NoBracket r row pos) :
    canEffort call eff g row pos rs = 0 := iterEffort_none (parseIter_none.1 h) hb

/-! ## Scripts -/

/-- What the cells of the containers of the row cost. -/
def CellsBound (eff : RecEffort) (row : Row) (pos : Nat) : Prop :=
  ∀ i v cells w, pos ≤ i → row[i]? = some (Node.container v cells w) →
    cellsEffort eff cells ≤ cellsWeight cells

theorem container_bound {v : Variant} {row : Row} {pos pos' p : Nat} {c : SChildren}
    (hc : CellsBound eff row pos') (hp : pos' ≤ pos)
    (h : parseContainer call v row pos = .ok (some (c, p))) :
    containerEffort eff false v row pos + restWeight row p + 1 ≤ restWeight row pos := by
  obtain ⟨cells, w, h1, rfl⟩ := container_inv h
  have h2 := restWeight_of_get h1
  have h3 := hc _ _ _ _ hp h1
  simp only [containerEffort, h1, if_true, Bool.false_eq_true, if_false]
  simp only [Node.weight] at h2
  omega

theorem script_steps {v : Variant} {row : Row} {pos p : Nat} {t : SNode}
    (h : parseScript call g v row pos = .ok (some (t, p))) :
    ∃ c p1 after, parseContainer call v row pos = .ok (some (c, p1)) ∧
      parseSpaces g row p1 = .ok (after, p) := by
  unfold parseScript at h
  obtain ⟨o, h1, h⟩ := M.bind_eq_ok.1 h
  cases o with
  | none => cases h
  | some cp =>
    obtain ⟨c, p1⟩ := cp
    obtain ⟨_, -, h⟩ := M.bind_eq_ok.1 h
    obtain ⟨⟨after, p2⟩, h3, h⟩ := M.bind_eq_ok.1 h
    obtain ⟨_, -, h⟩ := M.bind_eq_ok.1 h
    cases h
    exact ⟨c, p1, after, h1, h3⟩

theorem script_none {v : Variant} {row : Row} {pos : Nat}
    (h : parseScript call g v row pos = .ok none) : parseContainer call v row pos = .ok none := by
  unfold parseScript at h
  obtain ⟨o, h1, h⟩ := M.bind_eq_ok.1 h
  cases o with
  | none => exact h1
  | some cp =>
    obtain ⟨c, p1⟩ := cp
    obtain ⟨_, -, h⟩ := M.bind_eq_ok.1 h
    obtain ⟨⟨after, p2⟩, h3, h⟩ := M.bind_eq_ok.1 h
    obtain ⟨_, -, h⟩ := M.bind_eq_ok.1 h
    cases h

theorem parseSpaces_weight {row : Row} {pos p : Nat} {o : Option SNode}
    (h : parseSpaces g row pos = .ok (o, p)) : restWeight row p ≤ restWeight row pos := by
  rw [parseSpaces_pos h]
  exact restWeight_le row (Nat.le_add_right ..)

theorem scripts_bound {row : Row} {pos' : Nat} (hc : CellsBound eff row pos') :
    ∀ (n : Nat) {node t : SNode} {pos p : Nat}, pos' ≤ pos →
    parseScripts call g row n node pos = .ok (t, p) →
    scriptsEffort call eff false g row n pos + restWeight row p ≤ restWeight row pos
  | 0, _, _, _, _, _, h => by cases h
  | n + 1, node, t, pos, p, hp, h => by
    rw [parseScripts] at h
    rw [scriptsEffort]
    obtain ⟨o, h1, h⟩ := M.bind_eq_ok.1 h
    rw [h1]
    cases o with
    | some sp1 =>
      obtain ⟨s, p1⟩ := sp1
      obtain ⟨node', -, h⟩ := M.bind_eq_ok.1 h
      obtain ⟨c, p2, after, k1, k2⟩ := script_steps h1
      have k3 := container_bound hc hp k1
      have k4 := parseSpaces_weight k2
      have hlt : pos ≤ p1 := by
        rw [parseSpaces_pos k2, (container_inv k1).choose_spec.choose_spec.2]
        omega
      have := scripts_bound hc n (Nat.le_trans hp hlt) h
      dsimp only
      omega
    | none =>
      obtain ⟨o, h2, h⟩ := M.bind_eq_ok.1 h
      simp only [containerEffort_none (script_none h1), Nat.zero_add]
      cases o with
      | some sp1 =>
        obtain ⟨s, p1⟩ := sp1
        obtain ⟨node', -, h⟩ := M.bind_eq_ok.1 h
        obtain ⟨c, p2, after, k1, k2⟩ := script_steps h2
        have k3 := container_bound hc hp k1
        have k4 := parseSpaces_weight k2
        have hlt : pos ≤ p1 := by
          rw [parseSpaces_pos k2, (container_inv k1).choose_spec.choose_spec.2]
          omega
        have := scripts_bound hc n (Nat.le_trans hp hlt) h
        simp only [h2]
        omega
      | none =>
        cases h
        simp only [h2, containerEffort_none (script_none h2)]
        omega

theorem scriptsEffort_zero {row : Row} {n pos : Nat}
    (h : ∀ c, row[pos]? = some c → ¬ c.IsScript) :
    scriptsEffort call eff check g row n pos = 0 := by
  have key : ∀ v : Variant, (v = .sub ∨ v = .sup) → parseContainer call v row pos = .ok none := by
    intro v hv
    unfold parseContainer
    split
    · rename_i v' cells w hc
      rw [if_neg]
      rintro rfl
      have := h _ hc
      rcases hv with rfl | rfl <;> exact this trivial
    · rfl
  cases n with
  | zero => rfl
  | succ n =>
    have h1 := key .sub (.inl rfl)
    have h2 := key .sup (.inr rfl)
    simp only [scriptsEffort, parseScript, h1, h2, M.ok_bind, containerEffort_none h1,
      containerEffort_none h2]

/-! ## Tokens -/

/-- The bound for calls of depth `F`. -/
def Bounded (g : Grammar) (F : Nat) : Prop :=
  ∀ {row : Row} {pos : Nat} {min : Power} {e : Ending}, (∀ s, e = .sym s → s = [')']) →
    rowWf row = true → pos ≤ row.length →
    restWeight row pos < F → CleanFrom g row pos e →
    (∀ (i : Nat) v cells w, row[i]? = some (Node.container v cells w) → ∀ c ∈ cells, CleanRow g c) →
    ¬ OperatorScript row → min.1 ≤ 400 →
    ∃ res p, pratt g F row pos min e = .ok (res, p) ∧
      prattEffort g F row pos min e + restWeight row p ≤ 1 + restWeight row pos

theorem opScript_cell {row : Row} {i w : Nat} {v : Variant} {cells : List Row}
    (hi : row[i]? = some (.container v cells w)) {c : Row} (hc : c ∈ cells)
    (h : ¬ OperatorScript row) : ¬ OperatorScript c := by
  rintro ⟨p, r, k, n, nd, o, hp, rest⟩
  obtain ⟨j, hj⟩ := List.mem_iff_getElem?.1 hc
  exact h ⟨(i, j) :: p, r, k, n, nd, o, by rw [rowAt, hi]; simp only [hj, hp], rest⟩

theorem cellsWeight_mem {c : Row} : ∀ {cells : List Row}, c ∈ cells → rowWeight c + 1 ≤ cellsWeight cells
  | r :: rs, h => by
    rw [cellsWeight]
    rcases List.mem_cons.1 h with rfl | h
    · omega
    · have := cellsWeight_mem h
      omega

theorem cells_bound {F : Nat} (hF : Bounded g F) {row : Row} {pos : Nat} (hw : rowWf row = true)
    (hp : restWeight row pos ≤ F)
    (hcells : ∀ (i : Nat) v cells w, row[i]? = some (Node.container v cells w) → ∀ c ∈ cells, CleanRow g c)
    (hs : ¬ OperatorScript row) : CellsBound (prattEffort g F) row pos := by
  intro i v cells w hi hc
  have hweight : cellsWeight cells < F := by
    have h1 := restWeight_of_get hc
    have h2 := restWeight_le row hi
    simp only [Node.weight] at h1
    omega
  have hwf := rowWf_get hw hc
  simp only [Node.wf, Bool.and_eq_true] at hwf
  have key : ∀ c ∈ cells, prattEffort g F c 0 (0, .weak) .eof ≤ rowWeight c + 1 := by
    intro c hm
    have hcl := hcells _ _ _ _ hc c hm
    have hlt := cellsWeight_mem hm
    cases hcl with
    | mk h1 h2 =>
      obtain ⟨res, p, -, hb⟩ := hF (min := (0, .weak)) (e := .eof) (by rintro s ⟨⟩) (cellsWf_iff.1 hwf.2 c hm) (Nat.zero_le _)
        (by simp only [restWeight, List.drop_zero]; omega) h1 h2 (opScript_cell hc hm hs)
        (by decide)
      simp only [restWeight, List.drop_zero] at hb
      omega
  clear hc hweight hwf
  induction cells with
  | nil => exact Nat.le_refl _
  | cons r rs ih =>
    obtain ⟨h1, h2⟩ := List.forall_mem_cons.1 key
    have := ih h2
    simp only [cellsEffort, cellsWeight]
    omega

theorem restWeight_symbol {row : Row} {pos : Nat} {s : Str} (h : row[pos]? = some (.symbol s)) :
    restWeight row pos = 1 + restWeight row (pos + 1) := restWeight_of_get h

/-- A token costs less than it weighs. -/
theorem rule_bound {row : Row} {pos p : Nat} {r : Rule} {t : SNode}
    (hc : CellsBound eff row pos)
    (hb : ∀ n o c, r.parser = .brackets n o c → ∀ res q,
      call row (pos + leadingSpaces (row.drop pos) + 1) (0, .weak) (.sym c) = .ok (res, q) →
      eff row (pos + leadingSpaces (row.drop pos) + 1) (0, .weak) (.sym c) + restWeight row q ≤
        1 + restWeight row (pos + leadingSpaces (row.drop pos) + 1))
    (hs : r.kind.takesScripts = true → ∃ s ss ty, r.parser = .symbols (s :: ss) ty)
    (hlt : pos < p) (hle : p ≤ row.length)
    (h : ruleParse call g r row pos = .ok (some (t, p))) :
    ruleEffort call eff false g r row pos + restWeight row p + 1 ≤ restWeight row pos := by
  obtain ⟨before, p1, c, p2, after, p3, h1, h2, h3, h4, h5⟩ := ruleParse_steps h
  have hw1 := parseSpaces_weight h1
  have hw3 := parseSpaces_weight h3
  have hp1 := parseSpaces_pos h1
  have hp3 := parseSpaces_pos h3
  simp only [ruleEffort, h1, h2, h3]
  cases hk : r.kind.takesScripts with
  | true =>
    obtain ⟨s, ss, ty, hr⟩ := hs hk
    obtain ⟨node, h6⟩ := h5 hk
    rw [hr] at h2
    have hcut := symbols_inv h2
    have hp2 := hcut.len
    have hget : row[p1]? = some (.symbol s) := by
      have := congrArg List.head? hcut.eq
      rw [List.head?_drop] at this
      rw [this]
      rfl
    have hw2 := restWeight_symbol hget
    have hw4 : restWeight row p2 ≤ restWeight row (p1 + 1) :=
      restWeight_le row (by rw [hp2]; simp only [List.length_map, List.length_cons]; omega)
    have := scripts_bound hc _ (by rw [hp3, hp2, hp1]; omega) h6
    simp only [hr, tokenEffort, if_true]
    omega
  | false =>
    obtain rfl := h4 hk
    simp only [Bool.false_eq_true, if_false]
    have hplain := restWeight_lt row hlt hle
    cases htp : r.parser with
    | brackets n o cl =>
      rw [htp] at h2
      obtain ⟨child, q, k1, k2, k3, rfl⟩ := brackets_inv h2
      rw [hp1] at k2
      have k4 := hb n o cl htp child q k2
      rw [← hp1] at k4
      have k5 := restWeight_symbol k1
      have k6 := restWeight_symbol k3
      simp only [tokenEffort, bracketsEffort, selectSym, k1, beq_self_eq_true, if_true]
      omega
    | container v =>
      rw [htp] at h2
      have := container_bound hc (by rw [hp1]; omega : pos ≤ p1) h2
      simp only [tokenEffort]
      omega
    | _ =>
      simp only [tokenEffort]
      omega

/-! ## No bracket rule is tried in vain -/

/-- The parser does not start with an opening bracket. -/
def startsOther : TokenParser → Bool
  | .symbols (s :: _) _ => decide (s ≠ ['('])
  | .container _ => true
  | .variable => true
  | _ => false

/-- If the first rule is for brackets, the second one starts otherwise. -/
def bracketsBefore (r' r : Rule) : Bool :=
  match r'.parser with
  | .brackets _ o c => decide (o = ['(']) && decide (c = [')']) && startsOther r.parser
  | _ => true

theorem startsOther_not (S : Std x g m) (hx : x.Usual) {tp : TokenParser} {rest : Row}
    (ht : startsOther tp = true) (h : rest.head? = some (.symbol ['('])) :
    starts g rest tp = false := by
  cases tp with
  | symbols ss ty =>
    cases ss with
    | nil => cases ht
    | cons s ss =>
      simp only [startsOther, ne_eq, decide_eq_true_eq] at ht
      simp only [starts, beginsWith, h, isSym, Bool.and_eq_false_iff]
      exact .inl (beq_eq_false_iff_ne.2 fun h => ht h.symm)
  | container v => simp only [starts, h]
  | «variable» =>
    simp only [starts, h, isIdentifierStart, S.start, (hx.reserved '(' (by decide +kernel)).1,
      Bool.false_and]
  | _ => cases ht

theorem token_not_bracket (S : Std x g m) (hx : x.Usual) {tp : TokenParser} {row : Row} {pos p : Nat}
    {c : SChildren} (ht : startsOther tp = true)
    (h : tokenParse call g tp row pos = .ok (some (c, p))) : row[pos]? ≠ some (.symbol ['(']) := by
  intro hs
  rw [tokenParse_none rfl (startsOther_not S hx ht (by rw [List.head?_drop]; exact hs))] at h
  cases h

theorem brackets_only (S : Std x g m) (role : Role) : ∀ r ∈ g.ofRole role, ∀ n o c,
    r.parser = .brackets n o c → o = ['('] ∧ c = [')'] := by
  have key : ∀ l ∈ [shippedAtoms, shippedPrefixes, shippedInfixes, shippedPostfixes], ∀ r ∈ l,
      (match r.parser with
        | .brackets _ o c => decide (o = ['(']) && decide (c = [')'])
        | _ => true) = true := by decide +kernel
  intro r hr n o c hp
  have : ∃ l ∈ [shippedAtoms, shippedPrefixes, shippedInfixes, shippedPostfixes], r ∈ l := by
    cases role with
    | atom => exact ⟨shippedAtoms, by simp, by rwa [Grammar.ofRole, S.atoms] at hr⟩
    | «prefix» => exact ⟨shippedPrefixes, by simp, by rwa [Grammar.ofRole, S.prefixes] at hr⟩
    | «infix» => exact ⟨shippedInfixes, by simp, by rwa [Grammar.ofRole, S.infixes] at hr⟩
    | «postfix» => exact ⟨shippedPostfixes, by simp, by rwa [Grammar.ofRole, S.postfixes] at hr⟩
  obtain ⟨l, hl, hr⟩ := this
  have := key l hl r hr
  rw [hp] at this
  simpa using this

theorem before_noBracket (S : Std x g m) (hx : x.Usual) {role : Role} {row : Row} {pos p : Nat}
    {r : Rule} {t : SNode} {a b : List Rule} (hl : g.ofRole role = a ++ r :: b)
    (h : ruleParse call g r row pos = .ok (some (t, p))) : ∀ r' ∈ a, NoBracket r' row pos := by
  intro r' hr' n o c hp
  have key : (g.ofRole role).Pairwise fun r' r => bracketsBefore r' r = true := by
    cases role with
    | atom => rw [Grammar.ofRole, S.atoms]; decide +kernel
    | «prefix» => rw [Grammar.ofRole, S.prefixes]; decide +kernel
    | «infix» => rw [Grammar.ofRole, S.infixes]; decide +kernel
    | «postfix» => rw [Grammar.ofRole, S.postfixes]; decide +kernel
  rw [hl] at key
  have := (List.pairwise_append.1 key).2.2 r' hr' r (List.mem_cons_self ..)
  simp only [bracketsBefore, hp, Bool.and_eq_true, decide_eq_true_eq] at this
  obtain ⟨before, p1, c, p2, after, p3, h1, h2, -⟩ := ruleParse_steps h
  rw [parseSpaces_pos h1] at h2
  rw [this.1.1]
  exact token_not_bracket S hx this.2 h2

theorem noBracket_prefix (S : Std x g m) (row : Row) (pos : Nat) :
    ∀ r ∈ g.prefixes, NoBracket r row pos := by
  intro r hr n o c hp
  rw [S.prefixes] at hr
  have : ∀ r ∈ shippedPrefixes, startsOther r.parser = true := by decide +kernel
  have := this r hr
  rw [hp] at this
  cases this

theorem noBracket_infix (S : Std x g m) (row : Row) (pos : Nat) :
    ∀ r ∈ g.infixes, NoBracket r row pos := by
  intro r hr n o c hp
  rw [S.infixes] at hr
  have : ∀ r ∈ shippedInfixes, startsOther r.parser = true := by decide +kernel
  have := this r hr
  rw [hp] at this
  cases this

theorem noBracket_closing (S : Std x g m) (role : Role) {row : Row} {pos : Nat}
    (h : row[pos]? = some (.symbol [')'])) : ∀ r ∈ g.ofRole role, NoBracket r row pos := by
  intro r hr n o c hp
  rw [(brackets_only S role r hr n o c hp).1]
  have : leadingSpaces (row.drop pos) = 0 := by
    have hh : (row.drop pos).head? = some (.symbol [')']) := by rw [List.head?_drop]; exact h
    cases hd : row.drop pos with
    | nil => rfl
    | cons a l =>
      rw [hd] at hh
      cases hh
      rfl
  rw [this, Nat.add_zero, h]
  decide

/-! ## The bound -/

/-- The tokens of the brackets have clean insides. -/
def CleanToks (g : Grammar) (row : Row) (toks : List Tok) : Prop :=
  ∀ tk ∈ toks, ∀ n o c, tk.rule.parser = .brackets n o c →
    CleanFrom g row (tk.node.lo + leadingSpaces (row.drop tk.node.lo) + 1) (.sym c)

/-- What is known of the row. -/
structure Fine (x : Xid) (g : Grammar) (m : NameMap) (row : Row) (F : Nat) : Prop where
  std : Std x g m
  usual : x.Usual
  bounded : Bounded g F
  wf : rowWf row = true
  cells : ∀ (i : Nat) v cells w, row[i]? = some (Node.container v cells w) → ∀ c ∈ cells, CleanRow g c
  scripts : ¬ OperatorScript row

theorem Fine.deep {row : Row} {F pos : Nat} (h : Fine x g m row F) (hp : pos ≤ row.length)
    (hw : restWeight row pos ≤ F) : Deep g row pos F := ⟨h.std.good, h.wf, hp, hw⟩

/-- A chosen token costs less than it weighs. -/
theorem chosen_bound {F : Nat} {row : Row} (hf : Fine x g m row F) {role : Role} {pos p : Nat}
    {t : SNode} {r : Rule} (hp : pos ≤ row.length) (hw : restWeight row pos ≤ F)
    (hc : Chosen g role row pos t r p)
    (hb : ∀ n o c, r.parser = .brackets n o c →
      CleanFrom g row (t.lo + leadingSpaces (row.drop t.lo) + 1) (.sym c)) :
    iterEffort (pratt g F) (prattEffort g F) false g row pos (g.ofRole role) + restWeight row p + 1 ≤
      restWeight row pos := by
  have hd := hf.deep hp hw
  obtain ⟨hof, hlt⟩ := hc.fills hd
  obtain ⟨a, b, hl, ha, hr⟩ := parseIter_some.1 (hc.at hd)
  rw [hl, iterEffort_some ha (before_noBracket hf.std hf.usual hl hr) hr]
  refine rule_bound (cells_bound hf.bounded hf.wf hw hf.cells hf.scripts) ?_ ?_ hlt hof.le.2 hr
  · intro n o c hpar res q hcall
    obtain ⟨rfl, rfl⟩ := brackets_only hf.std role r (chosen_mem hc) n o c hpar
    obtain ⟨before, p1, c', p2, after, p3, h1, h2, -⟩ := ruleParse_steps hr
    rw [hpar, parseSpaces_pos h1] at h2
    obtain ⟨child, q', k1, k2, k3, -⟩ := brackets_inv h2
    have hlen := (List.getElem?_eq_some_iff.1 k1).1
    have hcl := hb n _ _ hpar
    rw [hof.lo_eq] at hcl
    have hw1 := restWeight_le row (Nat.le_add_right pos (leadingSpaces (row.drop pos)))
    have hw2 := restWeight_symbol k1
    obtain ⟨res', q'', k4, k5⟩ := hf.bounded (min := (0, .weak)) (by rintro s ⟨⟩; rfl) hf.wf (Nat.succ_le_of_lt hlen)
      (show restWeight row (pos + leadingSpaces (row.drop pos) + 1) < F by omega) hcl
      hf.cells hf.scripts (by decide)
    rw [hcall] at k4
    cases k4
    exact k5
  · intro hk
    have key : ∀ l ∈ [shippedAtoms, shippedPrefixes, shippedInfixes, shippedPostfixes], ∀ r ∈ l,
        (!r.kind.takesScripts || (match r.parser with
          | .symbols (_ :: _) _ => true
          | _ => false)) = true := by decide +kernel
    have hmem : ∃ l ∈ [shippedAtoms, shippedPrefixes, shippedInfixes, shippedPostfixes], r ∈ l := by
      have hm := chosen_mem hc
      cases role with
      | atom => exact ⟨shippedAtoms, by simp, by rwa [Grammar.ofRole, hf.std.atoms] at hm⟩
      | «prefix» => exact ⟨shippedPrefixes, by simp, by rwa [Grammar.ofRole, hf.std.prefixes] at hm⟩
      | «infix» => exact ⟨shippedInfixes, by simp, by rwa [Grammar.ofRole, hf.std.infixes] at hm⟩
      | «postfix» => exact ⟨shippedPostfixes, by simp, by rwa [Grammar.ofRole, hf.std.postfixes] at hm⟩
    obtain ⟨l, hl', hr'⟩ := hmem
    have := key l hl' r hr'
    rw [hk] at this
    simp only [Bool.not_true, Bool.false_or] at this
    split at this
    · exact ⟨_, _, _, by assumption⟩
    · cases this

/-- An infix operator costs nothing. -/
theorem infix_effort {F : Nat} {row : Row} (hf : Fine x g m row F) {pos p : Nat}
    {t : SNode} {r : Rule} (hp : pos ≤ row.length) (hw : restWeight row pos ≤ F)
    (hc : Chosen g .infix row pos t r p) :
    iterEffort (pratt g F) (prattEffort g F) false g row pos g.infixes = 0 := by
  have hd := hf.deep hp hw
  obtain ⟨a, b, hl, ha, hr⟩ := parseIter_some.1 (hc.at hd)
  have hl' : g.infixes = a ++ r :: b := hl
  rw [hl', iterEffort_some ha (before_noBracket hf.std hf.usual hl hr) hr]
  obtain ⟨o, rfl⟩ : ∃ o : BinOp, r = o.rule := by
    have := chosen_mem hc
    rw [Grammar.ofRole, hf.std.infixes] at this
    exact infix_op this
  obtain ⟨before, p1, c, p2, after, p3, h1, h2, h3, -, -⟩ := ruleParse_steps hr
  obtain ⟨i, hcut1, -⟩ := parseSpaces_cut h1
  obtain ⟨k, hcut3, -⟩ := parseSpaces_cut h3
  have hcut2 := symbols_inv h2
  have hget : row[p1]? = some (.symbol [o.char]) := by
    have := congrArg List.head? hcut2.eq
    rw [List.head?_drop] at this
    exact this
  have hp2 : p2 = p1 + 1 := hcut2.len
  simp only [ruleEffort, h1, h2, h3]
  have hts : o.rule.kind.takesScripts = true := rfl
  rw [if_pos hts, scriptsEffort_zero]
  · rfl
  · intro n hn hs
    have hp3 : p3 = p1 + 1 + k := by rw [hcut3.len, hp2]; simp [sp]
    refine hf.scripts ⟨[], row, p1, k, n, o, rfl, hget, fun j hj => ?_, by rw [← hp3]; exact hn, hs⟩
    have := congrArg (·[j]?) hcut3.eq
    simp only [List.getElem?_drop, hp2] at this
    rw [this, List.getElem?_append_left (by simpa [sp] using hj)]
    simp [sp, sy, hj]

theorem postfix_binds (S : Std x g m) {r : Rule} (hr : r ∈ g.postfixes) {min : Power}
    (h : min.1 ≤ 400) : r.kind.strengthLeft.lt min = false := by
  rw [S.postfixes] at hr
  have : ∀ r ∈ shippedPostfixes, 400 < r.kind.strengthLeft.1 := by decide +kernel
  have := this r hr
  simp only [Power.lt, Bool.or_eq_false_iff, Bool.and_eq_false_iff, decide_eq_false_iff_not]
  constructor
  · omega
  · left
    omega

theorem infix_right (S : Std x g m) {r : Rule} (hr : r ∈ g.infixes) :
    r.kind.strengthRight.1 ≤ 400 := by
  rw [S.infixes] at hr
  have : ∀ r ∈ shippedInfixes, r.kind.strengthRight.1 ≤ 400 := by decide +kernel
  exact this r hr

theorem prefix_right (S : Std x g m) {r : Rule} (hr : r ∈ g.prefixes) :
    r.kind.strengthRight.1 ≤ 400 := by
  rw [S.prefixes] at hr
  have : ∀ r ∈ shippedPrefixes, r.kind.strengthRight.1 ≤ 400 := by decide +kernel
  exact this r hr

/-- A recursive call: its bound, and what is left to read. -/
theorem call_bound {F : Nat} {row : Row} {e : Ending} (hf : Fine x g m row F)
    (he : ∀ s, e = .sym s → s = [')'])
    {pos q : Nat} {toks : List Tok} {min : Power} (hp : pos ≤ row.length) (hw : restWeight row pos < F)
    (hr : Reads g row e .operand pos toks q) (hcl : CleanToks g row toks) (hm : min.1 ≤ 400) :
    ∃ res p, pratt g F row pos min e = .ok (res, p) ∧ pos < p ∧ p ≤ row.length ∧
      prattEffort g F row pos min e + restWeight row p ≤ 1 + restWeight row pos ∧
      (∀ t, res = .expression t → ∃ rest, Reads g row e .operator p rest q ∧ CleanToks g row rest) := by
  obtain ⟨F', rfl⟩ : ∃ F', F = F' + 1 := ⟨F - 1, by omega⟩
  obtain ⟨res, p, T, rest, h1, h2, -, hout⟩ := operand_reads (F := F') min toks
    ⟨hf.std.good, hf.wf, hp, by omega⟩ hr
  obtain ⟨res', p', h3, h4⟩ := hf.bounded (min := min) he hf.wf hp hw (.mk hr hcl) hf.cells hf.scripts hm
  rw [h1] at h3
  cases h3
  refine ⟨res, p, h1, h2, hout.fills.le.2, h4, ?_⟩
  rintro t rfl
  cases rest with
  | nil => cases (hout.stop rfl).1
  | cons tk ts =>
    obtain ⟨-, hr2, -⟩ := hout.more tk ts rfl
    exact ⟨_, hr2, fun tk' htk' => hcl tk' (by rw [← hout.tokens]; exact List.mem_append_right _ htk')⟩

theorem loop_bound {F : Nat} {row : Row} {e : Ending} {min : Power} (hf : Fine x g m row F)
    (he : ∀ s, e = .sym s → s = [')']) (hm : min.1 ≤ 400) {q : Nat} :
    ∀ (n : Nat) {toks : List Tok} {left : SNode} {pos p : Nat} {res : PResult}, pos ≤ row.length →
    restWeight row pos ≤ F → Reads g row e .operator pos toks q → CleanToks g row toks →
    prattLoop (pratt g F) g row min e n left pos = .ok (res, p) →
    loopEffort (pratt g F) (prattEffort g F) g row min e n pos + restWeight row p ≤ restWeight row pos
  | 0, _, _, _, _, _, _, _, _, _, h => by cases h
  | n + 1, toks, left, pos, p, res, hp, hw, hr, hcl, h => by
    have hd := hf.deep hp hw
    rw [prattLoop] at h
    rw [loopEffort]
    cases hr with
    | endOfRow =>
      have hend : atInputEnd row row.length = true := by simp [atInputEnd]
      rw [if_pos hend] at h
      cases h
      rw [if_pos hend]
      omega
    | @closing _ s hes hs hno =>
      obtain rfl := he s hes
      have hlt := (List.getElem?_eq_some_iff.1 hs).1
      have hend : atInputEnd row q = false := by simp [atInputEnd]; omega
      have h1 := (hno .infix).at hd
      have h2 := (hno .postfix).at hd
      have h3 := (hno .prefix).at hd
      have h4 := (hno .atom).at hd
      have e1 := iterEffort_none (eff := prattEffort g F) (check := false) (parseIter_none.1 h1)
        (noBracket_closing hf.std .infix hs)
      have e2 := iterEffort_none (eff := prattEffort g F) (check := false) (parseIter_none.1 h2)
        (noBracket_closing hf.std .postfix hs)
      have e3 := canEffort_none (eff := prattEffort g F) h3 (noBracket_closing hf.std .prefix hs)
      have e4 := canEffort_none (eff := prattEffort g F) h4 (noBracket_closing hf.std .atom hs)
      simp only [Grammar.ofRole] at h1 h2 h3 h4 e1 e2 e3 e4
      simp only [hend, Bool.false_eq_true, if_false, h1, h2, M.ok_bind, canParseEither,
          canParse_of h3, canParse_of h4, Option.isSome_none, reads_closing_stop hes hs, if_true] at h
      cases h
      simp only [hend, Bool.false_eq_true, if_false, h1, h2, e1, e2, eitherEffort, e3, e4,
        canParseEither, canParse_of h3, canParse_of h4, Option.isSome_none, M.ok_bind,
        reads_closing_stop hes hs, if_true]
      exact (by omega : 0 + (0 + (0 + 0 + 0)) + restWeight row q ≤ restWeight row q)
    | @inf _ p1 _ op r ts hc hr' =>
      obtain ⟨hof, hlt⟩ := hc.fills hd
      have hend : atInputEnd row pos = false := by
        have := hof.le.2; simp [atInputEnd]; omega
      have h1 := hc.at hd
      have e1 := infix_effort hf hp hw hc
      have hmem := chosen_mem hc
      simp only [Grammar.ofRole] at h1 hmem
      have hw1 := restWeight_lt row hlt hof.le.2
      obtain ⟨res1, p2, hcall, hlt2, hle2, heff, hmore⟩ := call_bound hf he hof.le.2 (by omega) hr'
        (fun tk htk => hcl tk (List.mem_cons_of_mem _ htk)) (infix_right hf.std hmem)
      simp only [hend, Bool.false_eq_true, if_false, h1, M.ok_bind] at h
      simp only [hend, Bool.false_eq_true, if_false, h1, e1, hcall, Nat.zero_add]
      cases hls : r.kind.strengthLeft.lt min with
      | true =>
        simp only [hls, if_true] at h
        cases h
        simp
      | false =>
        simp only [hls, Bool.false_eq_true, if_false, hcall, M.ok_bind] at h
        simp only [Bool.false_eq_true, if_false]
        obtain ⟨t, -, h⟩ := M.bind_eq_ok.1 h
        cases res1 with
        | stop _ =>
          cases h
          exact (by omega : prattEffort g F row p1 r.kind.strengthRight e + 0 + restWeight row p ≤
            restWeight row pos)
        | expression t1 =>
          obtain ⟨rest, hr2, hcl2⟩ := hmore t1 rfl
          have := loop_bound hf he hm n hle2
            (Nat.le_trans (restWeight_le row (by omega)) hw) hr2 hcl2 h
          exact (by omega : prattEffort g F row p1 r.kind.strengthRight e +
            loopEffort (pratt g F) (prattEffort g F) g row min e n p2 + restWeight row p ≤
            restWeight row pos)
    | @post _ p1 _ op r ts hno hc hr' =>
      obtain ⟨hof, hlt⟩ := hc.fills hd
      have hend : atInputEnd row pos = false := by
        have := hof.le.2; simp [atInputEnd]; omega
      have h1 := hno.at hd
      have h2 := hc.at hd
      have e1 := iterEffort_none (eff := prattEffort g F) (check := false) (parseIter_none.1 h1)
        (noBracket_infix hf.std row pos)
      have e2 := chosen_bound hf hp hw hc (fun n o c hpar => hcl _ (List.mem_cons_self ..) n o c hpar)
      have hmem := chosen_mem hc
      simp only [Grammar.ofRole] at h1 h2 e1 e2 hmem
      have hls := postfix_binds hf.std hmem hm
      simp only [hend, Bool.false_eq_true, if_false, h1, h2, M.ok_bind, hls] at h
      simp only [hend, Bool.false_eq_true, if_false, h1, h2, e1, hls, Nat.zero_add]
      obtain ⟨t, -, h⟩ := M.bind_eq_ok.1 h
      have := loop_bound hf he hm n hof.le.2
        (Nat.le_trans (restWeight_le row (by omega)) hw) hr'
        (fun tk htk => hcl tk (List.mem_cons_of_mem _ htk)) h
      exact (by omega : iterEffort (pratt g F) (prattEffort g F) false g row pos g.postfixes +
        loopEffort (pratt g F) (prattEffort g F) g row min e n p1 + restWeight row p ≤
        restWeight row pos)

theorem bounded (S : Std x g m) (hx : x.Usual) (F : Nat) : Bounded g F := by
  induction F with
  | zero =>
    intro row pos min e _ _ _ hw
    omega
  | succ F ih =>
    intro row pos min e he hwf hp hw hcl hcells hs hm
    have hf : Fine x g m row F := ⟨S, hx, ih, hwf, hcells, hs⟩
    have hd := hf.deep hp (by omega)
    obtain ⟨hr, hb⟩ := hcl
    rename_i toks q
    obtain ⟨res, p, T, rest, h, -, -, -⟩ := operand_reads min toks hd hr
    refine ⟨res, p, h, ?_⟩
    rw [pratt, prattBody] at h
    simp only [prattEffort, bodyEffort]
    cases hr with
    | @pre _ p1 _ op r ts hc hr' =>
      obtain ⟨hof, hlt⟩ := hc.fills hd
      have hend : atInputEnd row pos = false := by
        have := hof.le.2; simp [atInputEnd]; omega
      have h1 := hc.at hd
      have e1 := chosen_bound hf hp (by omega) hc (fun n o c hpar => hb _ (List.mem_cons_self ..) n o c hpar)
      have hmem := chosen_mem hc
      simp only [Grammar.ofRole] at h1 e1 hmem
      have hw1 := restWeight_lt row hlt hof.le.2
      obtain ⟨res1, p2, hcall, hlt2, hle2, heff, hmore⟩ := call_bound hf he hof.le.2 (by omega) hr'
        (fun tk htk => hb tk (List.mem_cons_of_mem _ htk)) (prefix_right hf.std hmem)
      simp only [prattStart, hend, Bool.false_eq_true, if_false, h1, M.ok_bind, hcall] at h
      obtain ⟨⟨st, p'⟩, h2, h⟩ := M.bind_eq_ok.1 h
      have h2' := h2
      obtain ⟨t, h3, h2⟩ := M.bind_eq_ok.1 h2
      simp only [startEffort, prattStart, hend, Bool.false_eq_true, if_false, h1, M.ok_bind, hcall, h2']
      cases res1 with
      | stop _ =>
        cases h2
        cases h
        exact (by omega : 1 + (iterEffort (pratt g F) (prattEffort g F) false g row pos g.prefixes +
          prattEffort g F row p1 r.kind.strengthRight e + 0) + restWeight row p2 ≤
          1 + restWeight row pos)
      | expression t1 =>
        cases h2
        obtain ⟨rest, hr2, hcl2⟩ := hmore t1 rfl
        have := loop_bound hf he hm _ hle2
          (Nat.le_trans (restWeight_le row (by omega : pos ≤ p2)) (by omega)) hr2 hcl2 h
        exact (by omega : 1 + (iterEffort (pratt g F) (prattEffort g F) false g row pos g.prefixes +
          prattEffort g F row p1 r.kind.strengthRight e +
          loopEffort (pratt g F) (prattEffort g F) g row min e (row.length + 1) p2) + restWeight row p ≤
          1 + restWeight row pos)
    | @operand _ p1 _ t r ts hno hc hr' =>
      obtain ⟨hof, hlt⟩ := hc.fills hd
      have hend : atInputEnd row pos = false := by
        have := hof.le.2; simp [atInputEnd]; omega
      have h1 := hno.at hd
      have h2 := hc.at hd
      have e1 := iterEffort_none (eff := prattEffort g F) (check := false) (parseIter_none.1 h1)
        (noBracket_prefix hf.std row pos)
      have e2 := chosen_bound hf hp (by omega) hc (fun n o c hpar => hb _ (List.mem_cons_self ..) n o c hpar)
      simp only [Grammar.ofRole] at h1 h2 e1 e2
      simp only [prattStart, hend, Bool.false_eq_true, if_false, h1, h2, M.ok_bind] at h
      simp only [startEffort, prattStart, hend, Bool.false_eq_true, if_false, h1, h2, M.ok_bind, e1]
      have := loop_bound hf he hm _ hof.le.2
        (Nat.le_trans (restWeight_le row (by omega : pos ≤ p1)) (by omega)) hr'
        (fun tk htk => hb tk (List.mem_cons_of_mem _ htk)) h
      exact (by omega : 1 + (0 + (iterEffort (pratt g F) (prattEffort g F) false g row pos g.atoms + 0) +
        loopEffort (pratt g F) (prattEffort g F) g row min e (row.length + 1) p1) + restWeight row p ≤
        1 + restWeight row pos)

end Aftermath
