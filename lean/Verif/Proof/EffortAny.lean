import Verif.Proof.Effort

/-! # A bound on the effort of parsing any row -/

namespace Aftermath

variable {Q : Row → SNode → Prop} {g : Grammar} {call : Rec} {eff : RecEffort} {check : Bool}
  {K m : Nat}

theorem pow_mono (hK : 2 ≤ K) {a b : Nat} (h : a ≤ b) : K ^ a ≤ K ^ b :=
  Nat.pow_le_pow_right (by omega) h

theorem pow_sum {a b A B c : Nat} (hK : 2 ≤ K) (ha : A + 1 ≤ K ^ a) (hb : B + 1 ≤ K ^ b)
    (h : a + b ≤ c) : A + B + 1 ≤ K ^ c := by
  have h1 : (A + 1) * (B + 1) ≤ K ^ a * K ^ b := Nat.mul_le_mul ha hb
  rw [← Nat.pow_add] at h1
  have h2 := pow_mono hK h
  have h3 : A + B + 1 ≤ (A + 1) * (B + 1) := by
    rw [Nat.add_mul, Nat.mul_add]
    omega
  omega

/-- What the recursive calls on everything smaller than `m` cost. -/
def EffBound (eff : RecEffort) (K m : Nat) : Prop :=
  ∀ row pos min e, rowWf row = true → pos ≤ row.length → restWeight row pos < m →
    eff row pos min e + 1 ≤ K ^ (restWeight row pos + 1)

theorem cells_anyRow (hK : 2 ≤ K) (he : EffBound eff K m) : ∀ {cells : List Row},
    cellsWf cells = true → cellsWeight cells ≤ m → cellsEffort eff cells + 1 ≤ K ^ cellsWeight cells
  | [], _, _ => by simp [cellsEffort, cellsWeight]
  | r :: rs, hw, hm => by
    simp only [cellsWf, Bool.and_eq_true] at hw
    rw [cellsWeight] at hm ⊢
    rw [cellsEffort]
    have h1 := he r 0 (0, .weak) .eof hw.1 (Nat.zero_le _) (by simp only [restWeight, List.drop_zero]; omega)
    have h2 := cells_anyRow hK he hw.2 (by omega)
    simp only [restWeight, List.drop_zero] at h1
    exact pow_sum hK h1 h2 (Nat.le_refl _)

/-- A container costs no more than its weight allows. -/
theorem container_anyRow (hK : 2 ≤ K) (he : EffBound eff K m) (v : Variant) {row : Row} {pos : Nat}
    (hw : rowWf row = true) (hm : restWeight row pos ≤ m) :
    containerEffort eff check v row pos + 1 ≤ K ^ (restWeight row pos - restWeight row (pos + 1)) := by
  have h1 : 1 ≤ K ^ (restWeight row pos - restWeight row (pos + 1)) := Nat.one_le_pow _ _ (by omega)
  unfold containerEffort
  split
  · rename_i v' cells w hn
    have hr := restWeight_of_get hn
    simp only [Node.weight] at hr
    have hwf := rowWf_get hw hn
    simp only [Node.wf, Bool.and_eq_true] at hwf
    split
    · split
      · omega
      · refine Nat.le_trans (cells_anyRow hK he hwf.2 (by omega)) (pow_mono hK (by omega))
    · omega
  · omega

theorem scripts_anyRow (hK : 2 ≤ K) (he : EffBound eff K m) {row : Row} (hw : rowWf row = true) :
    ∀ (n : Nat) {pos : Nat}, restWeight row pos ≤ m →
    scriptsEffort call eff check g row n pos + 1 ≤ K ^ restWeight row pos
  | 0, pos, _ => Nat.one_le_pow _ _ (by omega)
  | n + 1, pos, hm => by
    rw [scriptsEffort]
    have step : ∀ v t p1, parseScript call g v row pos = .ok (some (t, p1)) →
        containerEffort eff check v row pos + scriptsEffort call eff check g row n p1 + 1 ≤
          K ^ restWeight row pos := by
      intro v t p1 h
      obtain ⟨c, p2, after, k1, k2⟩ := script_steps h
      obtain ⟨cells, w, hn, rfl⟩ := container_inv k1
      have h1 := container_anyRow (check := check) hK he v hw hm
      have h2 := parseSpaces_weight k2
      have h3 := restWeight_succ_le row pos
      have h4 := scripts_anyRow hK he hw n (pos := p1) (by omega)
      exact pow_sum hK h1 h4 (by omega)
    have cont : ∀ v, containerEffort eff check v row pos + 1 ≤ K ^ restWeight row pos := fun v =>
      Nat.le_trans (container_anyRow hK he v hw hm) (pow_mono hK (by omega))
    split
    · rename_i t p1 h
      exact step _ _ _ h
    · rename_i h
      rw [containerEffort_none (script_none h), Nat.zero_add]
      split
      · rename_i t p1 h
        exact step _ _ _ h
      · exact cont _
    · exact cont _

theorem token_anyRow (hK : 2 ≤ K) (he : EffBound eff K m) (tp : TokenParser) {row : Row} {pos : Nat}
    (hw : rowWf row = true) (hm : restWeight row pos ≤ m) :
    tokenEffort eff check tp row pos + 1 ≤ K ^ restWeight row pos := by
  have h0 : 0 + 1 ≤ K ^ restWeight row pos := Nat.one_le_pow _ _ (by omega)
  cases tp with
  | brackets n o c =>
    simp only [tokenEffort, bracketsEffort]
    split
    · exact h0
    · rename_i s p1 hs
      obtain ⟨h1, -, rfl⟩ := selectSym_some hs
      have hlt := (List.getElem?_eq_some_iff.1 h1).1
      have h2 := restWeight_of_get h1
      simp only [Node.weight] at h2
      have := he row (pos + 1) (0, .weak) (.sym c) hw hlt (by omega)
      rw [h2, Nat.add_comm 1]
      exact this
  | container v =>
    exact Nat.le_trans (container_anyRow hK he v hw hm) (pow_mono hK (by omega))
  | _ => exact h0

theorem rule_anyRow (hK : 2 ≤ K) (he : EffBound eff K m) (hc : CallOk Q call m) {r : Rule}
    (hne : r.parser.NonEmpty) {row : Row} {pos : Nat} (hw : rowWf row = true)
    (hp : pos ≤ row.length) (hm : restWeight row pos ≤ m) :
    ruleEffort call eff check g r row pos ≤ 2 * K ^ restWeight row pos := by
  unfold ruleEffort
  split
  · exact Nat.zero_le _
  · rename_i o p1 h1
    have hle : pos ≤ p1 := by rw [parseSpaces_pos h1]; omega
    have h2 := parseSpaces_weight h1
    have h3 := token_anyRow (check := check) hK he r.parser hw (pos := p1) (by omega)
    have h4 := pow_mono hK h2
    split
    · rename_i c p2 h5
      have hp1 : p1 ≤ row.length := by
        obtain ⟨o', p', h', -, -, hl⟩ := parseSpaces_ok (Q := Q) g hp
        rw [h1] at h'
        cases h'
        exact hl
      obtain ⟨o', h', hk⟩ := tokenParse_ok hc g hne hw hp1 (Nat.le_trans h2 hm)
      rw [h5] at h'
      cases h'
      have htok := hk c p2 rfl
      split
      · omega
      · rename_i after p3 h6
        have h7 := parseSpaces_weight h6
        have h8 := restWeight_le row (Nat.le_of_lt htok.lt)
        split
        · have h9 := scripts_anyRow (call := call) (g := g) (check := check) hK he hw (row.length + 1)
            (pos := p3) (by omega)
          have h10 := pow_mono hK (Nat.le_trans h7 (Nat.le_trans h8 h2))
          omega
        · omega
    · omega

theorem iter_anyRow (hK : 2 ≤ K) (he : EffBound eff K m) (hc : CallOk Q call m)
    {row : Row} {pos : Nat} (hw : rowWf row = true)
    (hp : pos ≤ row.length) (hm : restWeight row pos ≤ m) : ∀ {rs : List Rule},
    (∀ r ∈ rs, r.parser.NonEmpty) →
    iterEffort call eff check g row pos rs ≤ 2 * rs.length * K ^ restWeight row pos
  | [], _ => Nat.zero_le _
  | r :: rs, hne => by
    rw [iterEffort, List.length_cons, Nat.mul_add, Nat.add_mul]
    have h1 := rule_anyRow (g := g) (check := check) hK he hc (hne r (List.mem_cons_self ..)) hw hp hm
    have h2 := iter_anyRow hK he hc hw hp hm (rs := rs) (fun r hr => hne r (List.mem_cons_of_mem _ hr))
    split <;> omega

/-- The number of the rules that are used for parsing. -/
def Grammar.size (g : Grammar) : Nat :=
  g.prefixes.length + g.atoms.length + g.infixes.length + g.postfixes.length

theorem either_anyRow (hK : 2 ≤ K) (he : EffBound eff K m) (hc : CallOk Q call m)
    {row : Row} {pos : Nat} (hw : rowWf row = true)
    (hp : pos ≤ row.length) (hm : restWeight row pos ≤ m) {rs rs' : List Rule}
    (hne : ∀ r ∈ rs, r.parser.NonEmpty) (hne' : ∀ r ∈ rs', r.parser.NonEmpty) :
    eitherEffort call eff g row pos rs rs' ≤
      2 * (rs.length + rs'.length) * K ^ restWeight row pos := by
  have h1 := iter_anyRow (g := g) (check := true) hK he hc hw hp hm hne
  have h2 := iter_anyRow (g := g) (check := true) hK he hc hw hp hm hne'
  unfold eitherEffort canEffort
  rw [Nat.mul_add, Nat.add_mul]
  split <;> omega

theorem stops_anyRow (hK : 2 ≤ K) (he : EffBound eff K m) (hc : CallOk Q call m) (hg : g.Good)
    {row : Row} {pos : Nat} (hw : rowWf row = true) (e : Ending)
    (hp : pos ≤ row.length) (hm : restWeight row pos ≤ m) :
    stopsEffort call eff g row pos e ≤ 2 * g.size * K ^ restWeight row pos := by
  have h1 := iter_anyRow (g := g) (check := true) hK he hc hw hp hm hg.prefixes
  have h2 := iter_anyRow (g := g) (check := true) hK he hc hw hp hm hg.atoms
  have h3 := iter_anyRow (g := g) (check := true) hK he hc hw hp hm hg.infixes
  have h4 := iter_anyRow (g := g) (check := true) hK he hc hw hp hm hg.postfixes
  have hs : 2 * g.size * K ^ restWeight row pos =
      2 * g.prefixes.length * K ^ restWeight row pos + 2 * g.atoms.length * K ^ restWeight row pos +
      2 * g.infixes.length * K ^ restWeight row pos +
      2 * g.postfixes.length * K ^ restWeight row pos := by
    unfold Grammar.size
    simp only [Nat.mul_add, Nat.add_mul]
  unfold stopsEffort canEffort
  rw [hs]
  split
  · exact Nat.zero_le _
  split
  · split
    · split <;> simp only [← Nat.add_assoc, Nat.add_zero] <;> omega
    · simp only [Nat.add_zero]; omega
  · omega

theorem half_pow (hK : 2 ≤ K) {a b : Nat} (h : a < b) : 2 * K ^ a ≤ K ^ b :=
  calc 2 * K ^ a ≤ K * K ^ a := Nat.mul_le_mul_right _ hK
    _ = K ^ (a + 1) := by rw [Nat.pow_succ, Nat.mul_comm]
    _ ≤ K ^ b := pow_mono hK h

theorem half_mul (hK : 2 ≤ K) {a b : Nat} (h : a < b) (c : Nat) :
    2 * (c * K ^ a) ≤ c * K ^ b := by
  rw [Nat.mul_left_comm]
  exact Nat.mul_le_mul_left c (half_pow hK h)

theorem unknownLoop_anyRow (hK : 2 ≤ K) (he : EffBound eff K m) (hc : CallOk Q call m) (hg : g.Good)
    {row : Row} (hw : rowWf row = true) (e : Ending) : ∀ (n : Nat) {pos : Nat}, pos ≤ row.length →
    restWeight row pos ≤ m →
    unknownLoopEffort call eff g row e n pos ≤ 4 * (g.size * K ^ restWeight row pos)
  | 0, _, _, _ => Nat.zero_le _
  | n + 1, pos, hp, hm => by
    have h1 := stops_anyRow hK he hc hg hw e hp hm
    rw [Nat.mul_assoc] at h1
    rw [unknownLoopEffort]
    obtain ⟨b, hb, hs⟩ := unknownStops_ok hc hg e hw hp hm
    rw [hb]
    cases b with
    | true => dsimp only; omega
    | false =>
      obtain ⟨s, hs⟩ := hs rfl
      have hlt := (List.getElem?_eq_some_iff.1 hs).1
      have h2 := restWeight_lt row (show pos < pos + 1 by omega) hlt
      have h3 := unknownLoop_anyRow hK he hc hg hw e n (pos := pos + 1) hlt (by omega)
      have h4 := half_mul hK h2 g.size
      dsimp only
      omega

theorem unknown_anyRow (hK : 2 ≤ K) (he : EffBound eff K m) (hc : CallOk Q call m) (hg : g.Good)
    {row : Row} (hw : rowWf row = true) (e : Ending) {pos : Nat} (hp : pos < row.length)
    (hm : restWeight row pos ≤ m) :
    unknownEffort call eff g row e pos ≤ 2 * (g.size * K ^ restWeight row pos) := by
  have h1 := restWeight_lt row (show pos < pos + 1 by omega) hp
  have h2 := unknownLoop_anyRow hK he hc hg hw e (row.length + 1) (pos := pos + 1) hp (by omega)
  have h3 := half_mul hK h1 g.size
  unfold unknownEffort
  omega

theorem start_anyRow (hK : 2 ≤ K) (he : EffBound eff K m) (hc : CallOk Q call m) (hg : g.Good)
    {row : Row} (hw : rowWf row = true) (e : Ending) {pos : Nat} (hp : pos ≤ row.length)
    (hm : restWeight row pos ≤ m) :
    startEffort call eff g row e pos ≤
      4 * (g.size * K ^ restWeight row pos) + K ^ restWeight row pos := by
  have h1 := iter_anyRow (g := g) (check := false) hK he hc hw hp hm hg.prefixes
  have h2 := iter_anyRow (g := g) (check := false) hK he hc hw hp hm hg.atoms
  have h3 := either_anyRow (g := g) hK he hc hw hp hm hg.infixes hg.postfixes
  have hs : 2 * (g.size * K ^ restWeight row pos) =
      2 * g.prefixes.length * K ^ restWeight row pos + 2 * g.atoms.length * K ^ restWeight row pos +
      2 * (g.infixes.length + g.postfixes.length) * K ^ restWeight row pos := by
    unfold Grammar.size
    simp only [Nat.mul_add, Nat.add_mul, Nat.mul_assoc]
    omega
  unfold startEffort
  split
  · exact Nat.zero_le _
  rename_i hend
  have hlt := not_atInputEnd (Bool.not_eq_true _ ▸ hend)
  have h4 := unknown_anyRow hK he hc hg hw e hlt hm
  split
  · rename_i t r p1 h
    obtain ⟨o, ho, hk, -⟩ := parseIter_ok hc g hw hp hm hg.prefixes
    rw [h] at ho
    cases ho
    obtain ⟨hf, hlt1, -⟩ := hk t r p1 rfl
    have h5 := restWeight_lt row hlt1 hf.le.2
    have h6 := he row p1 r.kind.strengthRight e hw hf.le.2 (by omega)
    have h7 := pow_mono hK (show restWeight row p1 + 1 ≤ restWeight row pos by omega)
    omega
  · split
    · split
      · split <;> simp only [← Nat.add_assoc, Nat.add_zero] <;> omega
      · simp only [← Nat.add_assoc, Nat.add_zero]; omega
    · simp only [← Nat.add_assoc, Nat.add_zero]; omega
  · omega

theorem loop_anyRow (hK : 2 ≤ K) (he : EffBound eff K m) (hc : CallOk Q call m) (hg : g.Good)
    {row : Row} (hw : rowWf row = true) (min : Power) (e : Ending) (hpr : CallProgress call g row e m) :
    ∀ (n : Nat) {pos : Nat}, pos ≤ row.length → restWeight row pos ≤ m →
    (restWeight row pos < m → loopEffort call eff g row min e n pos ≤
      8 * (g.size * K ^ restWeight row pos) + 2 * K ^ (restWeight row pos + 1)) ∧
    ((∃ x, parseIter call g row pos g.infixes = .ok (some x)) ∨
      (∃ x, parseIter call g row pos g.postfixes = .ok (some x)) →
      loopEffort call eff g row min e n pos ≤
        6 * (g.size * K ^ restWeight row pos) + 3 * K ^ restWeight row pos)
  | 0, _, _, _ => ⟨fun _ => Nat.zero_le _, fun _ => Nat.zero_le _⟩
  | n + 1, pos, hp, hm => by
    have h1 := iter_anyRow (g := g) (check := false) hK he hc hw hp hm hg.infixes
    have h2 := iter_anyRow (g := g) (check := false) hK he hc hw hp hm hg.postfixes
    have h3 := either_anyRow (g := g) hK he hc hw hp hm hg.prefixes hg.atoms
    have hs : 2 * (g.size * K ^ restWeight row pos) =
        2 * g.infixes.length * K ^ restWeight row pos + 2 * g.postfixes.length * K ^ restWeight row pos +
        2 * (g.prefixes.length + g.atoms.length) * K ^ restWeight row pos := by
      unfold Grammar.size
      simp only [Nat.mul_add, Nat.add_mul, Nat.mul_assoc]
      omega
    have hpow := pow_mono hK (show restWeight row pos ≤ restWeight row pos + 1 by omega)
    rw [loopEffort]
    split
    · exact ⟨fun _ => Nat.zero_le _, fun _ => Nat.zero_le _⟩
    rename_i hend
    have hend' : atInputEnd row pos = false := Bool.not_eq_true _ ▸ hend
    have hlt := not_atInputEnd hend'
    -- what the rest of the loop costs
    have next : ∀ {p2 : Nat}, pos < p2 → p2 ≤ row.length →
        loopEffort call eff g row min e n p2 ≤
          4 * (g.size * K ^ restWeight row pos) + 2 * K ^ restWeight row pos := by
      intro p2 h4 h5
      have h6 := restWeight_lt row h4 h5
      have h7 := (loop_anyRow hK he hc hg hw min e hpr n h5 (by omega)).1 (by omega)
      have h8 := half_mul hK h6 g.size
      have h9 := pow_mono hK (show restWeight row p2 + 1 ≤ restWeight row pos by omega)
      omega
    obtain ⟨o1, k1, -, -⟩ := parseIter_ok hc g hw hp hm hg.prefixes
    obtain ⟨o2, k2, -, -⟩ := parseIter_ok hc g hw hp hm hg.atoms
    obtain ⟨o3, k3, hk3, -⟩ := parseIter_ok hc g hw hp hm hg.infixes
    obtain ⟨o4, k4, hk4, -⟩ := parseIter_ok hc g hw hp hm hg.postfixes
    simp only [k3, k4]
    cases o3 with
    | some x =>
      obtain ⟨op, r, p1⟩ := x
      obtain ⟨hof, hlt1, -⟩ := hk3 op r p1 rfl
      dsimp only
      have : iterEffort call eff false g row pos g.infixes +
          (if r.kind.strengthLeft.lt min = true then 0
          else eff row p1 r.kind.strengthRight e +
            match call row p1 r.kind.strengthRight e with
            | .ok (.expression _, p2) => loopEffort call eff g row min e n p2
            | _ => 0) ≤ 6 * (g.size * K ^ restWeight row pos) + 3 * K ^ restWeight row pos := by
        split
        · omega
        have h5 := restWeight_lt row hlt1 hof.le.2
        have h6 := he row p1 r.kind.strengthRight e hw hof.le.2 (by omega)
        have h7 := pow_mono hK (show restWeight row p1 + 1 ≤ restWeight row pos by omega)
        obtain ⟨res, p2, hcall, hgood⟩ := hc.2 row p1 r.kind.strengthRight e hw hof.le.2 (by omega)
        have hle := hgood.fills.le
        rw [hcall]
        cases res with
        | expression u =>
          have := next (p2 := p2) (by omega) hle.2
          dsimp only
          omega
        | stop u => dsimp only; omega
      have hpow2 := half_pow hK (show restWeight row pos < restWeight row pos + 1 by omega)
      exact ⟨fun _ => Nat.le_trans this (by omega), fun _ => this⟩
    | none =>
      dsimp only
      cases o4 with
      | some x =>
        obtain ⟨op, r, p1⟩ := x
        obtain ⟨hof, hlt1, -⟩ := hk4 op r p1 rfl
        dsimp only
        have := next hlt1 hof.le.2
        have hb : iterEffort call eff false g row pos g.infixes +
            (iterEffort call eff false g row pos g.postfixes +
            (if r.kind.strengthLeft.lt min = true then 0 else loopEffort call eff g row min e n p1)) ≤
            6 * (g.size * K ^ restWeight row pos) + 2 * K ^ restWeight row pos := by
          split <;> simp only [← Nat.add_assoc, Nat.add_zero] <;> omega
        exact ⟨fun _ => Nat.le_trans hb (by omega), fun _ => Nat.le_trans hb (by omega)⟩
      | none =>
        dsimp only
        refine ⟨fun hm' => ?_, by rintro (⟨x, hx⟩ | ⟨x, hx⟩) <;> cases hx⟩
        have hpow2 := half_pow hK (show restWeight row pos < restWeight row pos + 1 by omega)
        have missing : ((∃ x, parseIter call g row pos g.prefixes = .ok (some x)) ∨
            (∃ x, parseIter call g row pos g.atoms = .ok (some x))) →
            eff row pos missingOperatorKind.strengthRight e +
            (match call row pos missingOperatorKind.strengthRight e with
            | .ok (.expression _, p2) => loopEffort call eff g row min e n p2
            | _ => 0) ≤ 4 * (g.size * K ^ restWeight row pos) + 2 * K ^ (restWeight row pos + 1) := by
          intro hsome
          have h6 := he row pos missingOperatorKind.strengthRight e hw hp hm'
          obtain ⟨res, p2, hcall, hgood⟩ := hc.2 row pos missingOperatorKind.strengthRight e hw hp hm'
          have hlt2 := hpr pos _ res p2 hm' hcall hsome hend'
          have := next hlt2 hgood.fills.le.2
          rw [hcall]
          cases res with
          | expression u => dsimp only; omega
          | stop u => dsimp only; omega
        simp only [canParseEither, canParse_of k1, canParse_of k2, M.ok_bind]
        cases o1 with
        | some x =>
          have := missing (.inl ⟨x, k1⟩)
          dsimp only [Option.isSome]
          split
          · split
            · simp only [← Nat.add_assoc, Nat.add_zero]; omega
            · rw [← Nat.add_assoc, ← Nat.add_assoc]
              exact Nat.le_trans (Nat.add_le_add_left this _) (by omega)
          · rename_i h; cases h
          · rename_i h; cases h
        | none =>
          cases o2 with
          | some x =>
            have := missing (.inr ⟨x, k2⟩)
            dsimp only [Option.isSome]
            split
            · split
              · simp only [← Nat.add_assoc, Nat.add_zero]; omega
              · rw [← Nat.add_assoc, ← Nat.add_assoc]
                exact Nat.le_trans (Nat.add_le_add_left this _) (by omega)
            · rename_i h; cases h
            · rename_i h; cases h
          | none =>
            dsimp only [Option.isSome]
            split
            · rename_i h; cases h
            · split
              · simp only [← Nat.add_assoc, Nat.add_zero]; omega
              rename_i hat
              obtain ⟨s, hs'⟩ := symbol_of_none hc hg hw hlt hm k1 k2 k3 k4
              obtain ⟨u, p2, hu, huf, hlt2⟩ := parseUnknown_ok hc hg e hw hs' hm
              have h4 := unknown_anyRow hK he hc hg hw e hlt hm
              have := next hlt2 huf.le.2
              rw [hu]
              simp only [← Nat.add_assoc, Nat.add_zero]
              omega
            · simp only [← Nat.add_assoc, Nat.add_zero]; omega

/-- The base of the bound. -/
def Grammar.base (g : Grammar) : Nat := 10 * g.size + 6

theorem body_anyRow (he : EffBound eff g.base m) (hc : CallOk Q call m) (hg : g.Good)
    {row : Row} (hw : rowWf row = true) (min : Power) (e : Ending) (hpr : CallProgress call g row e m)
    {pos : Nat} (hp : pos ≤ row.length) (hm : restWeight row pos ≤ m) :
    bodyEffort call eff g row pos min e + 2 ≤ g.base ^ (restWeight row pos + 1) := by
  have hK : 2 ≤ g.base := by unfold Grammar.base; omega
  have h1 := start_anyRow hK he hc hg hw e hp hm
  have hone : 1 ≤ g.base ^ restWeight row pos := Nat.one_le_pow _ _ (by omega)
  have hgoal : g.base ^ (restWeight row pos + 1) =
      10 * (g.size * g.base ^ restWeight row pos) + 6 * g.base ^ restWeight row pos := by
    rw [Nat.pow_succ, Nat.mul_comm]
    conv => lhs; lhs; rw [Grammar.base]
    rw [Nat.add_mul, Nat.mul_assoc]
  obtain ⟨s, p, hs, hgd⟩ := prattStart_ok hc hg e hw hp hm
  unfold bodyEffort
  rw [hs, hgoal]
  cases s with
  | finished t => dsimp only; omega
  | left t =>
    have hle := hgd.fills.le
    have key := loop_anyRow hK he hc hg hw min e hpr (row.length + 1) hle.2
      (Nat.le_trans (restWeight_le row hle.1) hm)
    dsimp only
    rcases Nat.lt_or_eq_of_le hle.1 with h | h
    · have h2 := restWeight_lt row h hle.2
      have h3 := key.1 (by omega)
      have h4 := half_mul hK h2 g.size
      have h5 := pow_mono hK (show restWeight row p + 1 ≤ restWeight row pos by omega)
      omega
    · subst h
      have h3 := key.2 (hgd.stuck t rfl rfl)
      omega

theorem pratt_anyRow (hg : g.Good) : ∀ f, EffBound (prattEffort g f) g.base f
  | 0 => fun _ _ _ _ _ _ h => absurd h (by omega)
  | f + 1 => fun row pos min e hw hp hm => by
    have hb := pratt_both hg f
    have := body_anyRow (pratt_anyRow hg f) hb.1 hg hw min e (hb.2 row e hw) hp (Nat.lt_succ_iff.1 hm)
    simp only [prattEffort]
    omega

end Aftermath
