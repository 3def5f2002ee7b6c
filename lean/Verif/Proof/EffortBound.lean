import Verif.Model.Effort
import Verif.Proof.ParseMono

/-! # More recursion depth never changes the effort -/

namespace Aftermath

/-- The efforts are the same wherever the first call has a result. -/
structure SameEffort (c1 c2 : Rec) (e1 e2 : RecEffort) : Prop where
  le : c1.Le c2
  eq : ∀ row pos min e r, c1 row pos min e = .ok r → e1 row pos min e = e2 row pos min e

variable {c1 c2 : Rec} {e1 e2 : RecEffort} {g : Grammar} {check : Bool}

theorem cellsEffort_eq (h : SameEffort c1 c2 e1 e2) : ∀ {cells : List Row} {ts : List SNode},
    parseCells c1 cells = .ok ts → cellsEffort e1 cells = cellsEffort e2 cells
  | [], _, _ => rfl
  | r :: rs, ts, hp => by
    rw [parseCells, parseWhole] at hp
    obtain ⟨t, h1, hp⟩ := M.bind_eq_ok.1 hp
    obtain ⟨x, h2, -⟩ := M.bind_eq_ok.1 h1
    obtain ⟨ts', h3, -⟩ := M.bind_eq_ok.1 hp
    rw [cellsEffort, cellsEffort, h.eq _ _ _ _ _ h2, cellsEffort_eq h h3]

theorem containerEffort_eq (h : SameEffort c1 c2 e1 e2) {v : Variant} {row : Row} {pos : Nat}
    {o : Option (SChildren × Nat)} (hp : parseContainer c1 v row pos = .ok o) :
    containerEffort e1 check v row pos = containerEffort e2 check v row pos := by
  unfold parseContainer at hp
  unfold containerEffort
  split at hp
  · rename_i v' cells w hv
    rw [hv]
    dsimp only
    split at hp
    · rename_i hvv
      obtain ⟨ts, h1, -⟩ := M.bind_eq_ok.1 hp
      rw [if_pos hvv, if_pos hvv, cellsEffort_eq h h1]
    · rename_i hvv
      rw [if_neg hvv, if_neg hvv]
  · split
    · rename_i hn _ _ _ _ hv
      exact absurd hv (hn _ _ _)
    · rfl

theorem tokenEffort_eq (h : SameEffort c1 c2 e1 e2) {tp : TokenParser} {row : Row} {pos : Nat}
    {o : Option (SChildren × Nat)} (hp : tokenParse c1 g tp row pos = .ok o) :
    tokenEffort e1 check tp row pos = tokenEffort e2 check tp row pos := by
  cases tp with
  | container v => exact containerEffort_eq h hp
  | brackets n op cl =>
    simp only [tokenParse, parseBrackets] at hp
    simp only [tokenEffort, bracketsEffort]
    cases hs : selectSym (fun s => s == op) row pos with
    | none => rfl
    | some y =>
      rw [hs] at hp
      obtain ⟨x, h1, -⟩ := M.bind_eq_ok.1 hp
      exact h.eq _ _ _ _ _ h1
  | _ => rfl

theorem parseScript_container {v : Variant} {row : Row} {pos : Nat} {o : Option (SNode × Nat)}
    (hp : parseScript c1 g v row pos = .ok o) : ∃ o', parseContainer c1 v row pos = .ok o' := by
  obtain ⟨o', h1, -⟩ := M.bind_eq_ok.1 hp
  exact ⟨o', h1⟩

theorem scriptsEffort_eq (h : SameEffort c1 c2 e1 e2) {row : Row} : ∀ (n : Nat) {node : SNode}
    {pos : Nat} {r : SNode × Nat}, parseScripts c1 g row n node pos = .ok r →
    scriptsEffort c1 e1 check g row n pos = scriptsEffort c2 e2 check g row n pos
  | 0, _, _, _, _ => rfl
  | n + 1, node, pos, r, hp => by
    rw [parseScripts] at hp
    rw [scriptsEffort, scriptsEffort]
    obtain ⟨o, h1, hp⟩ := M.bind_eq_ok.1 hp
    obtain ⟨o', h1'⟩ := parseScript_container h1
    rw [h1, parseScript_mono h.le _ _ _ _ _ h1, containerEffort_eq h h1']
    cases o with
    | some x =>
      obtain ⟨s, p1⟩ := x
      obtain ⟨node', -, hp⟩ := M.bind_eq_ok.1 hp
      dsimp only
      rw [scriptsEffort_eq h n hp]
    | none =>
      obtain ⟨o, h2, hp⟩ := M.bind_eq_ok.1 hp
      obtain ⟨o', h2'⟩ := parseScript_container h2
      dsimp only
      rw [h2, parseScript_mono h.le _ _ _ _ _ h2, containerEffort_eq h h2']
      cases o with
      | some x =>
        obtain ⟨s, p1⟩ := x
        obtain ⟨node', -, hp⟩ := M.bind_eq_ok.1 hp
        dsimp only
        rw [scriptsEffort_eq h n hp]
      | none => rfl

theorem ruleEffort_eq (h : SameEffort c1 c2 e1 e2) {r : Rule} {row : Row} {pos : Nat}
    {o : Option (SNode × Nat)} (hp : ruleParse c1 g r row pos = .ok o) :
    ruleEffort c1 e1 check g r row pos = ruleEffort c2 e2 check g r row pos := by
  unfold ruleParse at hp
  unfold ruleEffort
  obtain ⟨⟨before, p1⟩, h1, hp⟩ := M.bind_eq_ok.1 hp
  obtain ⟨o', h2, hp⟩ := M.bind_eq_ok.1 hp
  rw [h1]
  dsimp only at h2 ⊢
  rw [h2, tokenParse_mono h.le _ _ _ _ _ h2, tokenEffort_eq h h2]
  cases o' with
  | none => rfl
  | some x =>
    obtain ⟨c, p2⟩ := x
    obtain ⟨node, -, hp⟩ := M.bind_eq_ok.1 hp
    obtain ⟨⟨after, p3⟩, h3, hp⟩ := M.bind_eq_ok.1 hp
    obtain ⟨node', -, hp⟩ := M.bind_eq_ok.1 hp
    dsimp only
    rw [h3]
    dsimp only
    split
    · rename_i hk
      rw [if_pos hk] at hp
      obtain ⟨res, h4, -⟩ := M.bind_eq_ok.1 hp
      rw [scriptsEffort_eq h _ h4]
    · rfl

theorem iterEffort_eq (h : SameEffort c1 c2 e1 e2) {row : Row} {pos : Nat} : ∀ {rs : List Rule}
    {o : Option (SNode × Rule × Nat)}, parseIter c1 g row pos rs = .ok o →
    iterEffort c1 e1 check g row pos rs = iterEffort c2 e2 check g row pos rs
  | [], _, _ => rfl
  | r :: rs, o, hp => by
    rw [parseIter] at hp
    rw [iterEffort, iterEffort]
    obtain ⟨o', h1, hp⟩ := M.bind_eq_ok.1 hp
    rw [h1, ruleParse_mono h.le _ _ _ _ _ h1, ruleEffort_eq h h1]
    cases o' with
    | some x => rfl
    | none =>
      dsimp only
      rw [iterEffort_eq h hp]

theorem canEffort_eq (h : SameEffort c1 c2 e1 e2) {row : Row} {pos : Nat} {rs : List Rule} {b : Bool}
    (hp : canParse c1 g row pos rs = .ok b) :
    canEffort c1 e1 g row pos rs = canEffort c2 e2 g row pos rs := by
  obtain ⟨o, h1, -⟩ := M.bind_eq_ok.1 hp
  exact iterEffort_eq h h1

theorem eitherEffort_eq (h : SameEffort c1 c2 e1 e2) {row : Row} {pos : Nat} {rs rs' : List Rule}
    {b : Bool} (hp : canParseEither c1 g row pos rs rs' = .ok b) :
    eitherEffort c1 e1 g row pos rs rs' = eitherEffort c2 e2 g row pos rs rs' := by
  unfold canParseEither at hp
  unfold eitherEffort
  obtain ⟨b', h1, hp⟩ := M.bind_eq_ok.1 hp
  rw [h1, canParse_mono h.le _ _ _ _ _ h1, canEffort_eq h h1]
  cases b' with
  | true => rfl
  | false =>
    dsimp only
    rw [canEffort_eq h hp]

theorem stopsEffort_eq (h : SameEffort c1 c2 e1 e2) {row : Row} {pos : Nat} {e : Ending} {b : Bool}
    (hp : unknownStops c1 g row pos e = .ok b) :
    stopsEffort c1 e1 g row pos e = stopsEffort c2 e2 g row pos e := by
  unfold unknownStops at hp
  unfold stopsEffort
  split
  · rfl
  rename_i hend
  rw [if_neg hend] at hp
  obtain ⟨b1, h1, hp⟩ := M.bind_eq_ok.1 hp
  rw [h1, canParse_mono h.le _ _ _ _ _ h1, canEffort_eq h h1]
  cases b1 with
  | true => rfl
  | false =>
    dsimp only
    obtain ⟨b2, h2, hp⟩ := M.bind_eq_ok.1 hp
    rw [h2, canParse_mono h.le _ _ _ _ _ h2, canEffort_eq h h2]
    cases b2 with
    | true => rfl
    | false =>
      dsimp only
      obtain ⟨b3, h3, hp⟩ := M.bind_eq_ok.1 hp
      rw [h3, canParse_mono h.le _ _ _ _ _ h3, canEffort_eq h h3]
      cases b3 with
      | true => rfl
      | false =>
        dsimp only
        rw [canEffort_eq h hp]

theorem unknownLoopEffort_eq (h : SameEffort c1 c2 e1 e2) {row : Row} {e : Ending} : ∀ (n : Nat)
    {atom : SNode} {pos : Nat} {r : SNode × Nat}, unknownLoop c1 g row e n atom pos = .ok r →
    unknownLoopEffort c1 e1 g row e n pos = unknownLoopEffort c2 e2 g row e n pos
  | 0, _, _, _, _ => rfl
  | n + 1, atom, pos, r, hp => by
    rw [unknownLoop] at hp
    rw [unknownLoopEffort, unknownLoopEffort]
    obtain ⟨b, h1, hp⟩ := M.bind_eq_ok.1 hp
    rw [h1, unknownStops_mono h.le _ _ _ _ _ h1, stopsEffort_eq h h1]
    cases b with
    | true => rfl
    | false =>
      obtain ⟨next, -, hp⟩ := M.bind_eq_ok.1 hp
      obtain ⟨joined, -, hp⟩ := M.bind_eq_ok.1 hp
      dsimp only
      rw [unknownLoopEffort_eq h n hp]

theorem unknownEffort_eq (h : SameEffort c1 c2 e1 e2) {row : Row} {e : Ending} {pos : Nat}
    {r : SNode × Nat} (hp : parseUnknown c1 g row e pos = .ok r) :
    unknownEffort c1 e1 g row e pos = unknownEffort c2 e2 g row e pos := by
  obtain ⟨atom, -, hp⟩ := M.bind_eq_ok.1 hp
  exact unknownLoopEffort_eq h _ hp

theorem startEffort_eq (h : SameEffort c1 c2 e1 e2) {row : Row} {e : Ending} {pos : Nat}
    {r : Start × Nat} (hp : prattStart c1 g row e pos = .ok r) :
    startEffort c1 e1 g row e pos = startEffort c2 e2 g row e pos := by
  unfold prattStart at hp
  unfold startEffort
  split
  · rfl
  rename_i hend
  rw [if_neg hend] at hp
  obtain ⟨o1, h1, hp⟩ := M.bind_eq_ok.1 hp
  rw [h1, parseIter_mono h.le _ _ _ _ _ h1, iterEffort_eq h h1]
  cases o1 with
  | some x =>
    obtain ⟨op, rl, p1⟩ := x
    obtain ⟨y, h2, hp⟩ := M.bind_eq_ok.1 hp
    dsimp only
    rw [h.eq _ _ _ _ _ h2]
  | none =>
    obtain ⟨o2, h2, hp⟩ := M.bind_eq_ok.1 hp
    dsimp only
    rw [h2, parseIter_mono h.le _ _ _ _ _ h2, iterEffort_eq h h2]
    cases o2 with
    | some x => rfl
    | none =>
      obtain ⟨b, h3, hp⟩ := M.bind_eq_ok.1 hp
      dsimp only
      rw [h3, canParseEither_mono h.le _ _ _ _ _ _ h3, eitherEffort_eq h h3]
      cases b with
      | true => rfl
      | false =>
        dsimp only
        split
        · rfl
        · rename_i hat
          rw [if_neg (by decide), if_neg hat] at hp
          obtain ⟨y, h4, -⟩ := M.bind_eq_ok.1 hp
          rw [unknownEffort_eq h h4]

theorem loopEffort_eq (h : SameEffort c1 c2 e1 e2) {row : Row} {min : Power} {e : Ending} : ∀ (n : Nat)
    {left : SNode} {pos : Nat} {r : PResult × Nat}, prattLoop c1 g row min e n left pos = .ok r →
    loopEffort c1 e1 g row min e n pos = loopEffort c2 e2 g row min e n pos
  | 0, _, _, _, _ => rfl
  | n + 1, left, pos, r, hp => by
    rw [prattLoop] at hp
    rw [loopEffort, loopEffort]
    split
    · rfl
    rename_i hend
    rw [if_neg hend] at hp
    obtain ⟨o1, h1, hp⟩ := M.bind_eq_ok.1 hp
    rw [h1, parseIter_mono h.le _ _ _ _ _ h1, iterEffort_eq h h1]
    cases o1 with
    | some x =>
      obtain ⟨op, rl, p1⟩ := x
      dsimp only at hp ⊢
      split
      · rfl
      rename_i hlt
      rw [if_neg hlt] at hp
      obtain ⟨⟨right, p2⟩, h2, hp⟩ := M.bind_eq_ok.1 hp
      obtain ⟨t, -, hp⟩ := M.bind_eq_ok.1 hp
      rw [h2, h.le _ _ _ _ _ h2, h.eq _ _ _ _ _ h2]
      cases right with
      | stop _ => rfl
      | expression _ =>
        dsimp only
        rw [loopEffort_eq h n hp]
    | none =>
      obtain ⟨o2, h2, hp⟩ := M.bind_eq_ok.1 hp
      dsimp only
      rw [h2, parseIter_mono h.le _ _ _ _ _ h2, iterEffort_eq h h2]
      cases o2 with
      | some x =>
        obtain ⟨op, rl, p1⟩ := x
        dsimp only at hp ⊢
        split
        · rfl
        rename_i hlt
        rw [if_neg hlt] at hp
        obtain ⟨t, -, hp⟩ := M.bind_eq_ok.1 hp
        rw [loopEffort_eq h n hp]
      | none =>
        obtain ⟨b, h3, hp⟩ := M.bind_eq_ok.1 hp
        dsimp only
        rw [h3, canParseEither_mono h.le _ _ _ _ _ _ h3, eitherEffort_eq h h3]
        cases b with
        | true =>
          rw [if_pos rfl] at hp
          dsimp only
          split
          · rfl
          rename_i hlt
          rw [if_neg hlt] at hp
          obtain ⟨⟨right, p2⟩, h4, hp⟩ := M.bind_eq_ok.1 hp
          obtain ⟨t, -, hp⟩ := M.bind_eq_ok.1 hp
          rw [h4, h.le _ _ _ _ _ h4, h.eq _ _ _ _ _ h4]
          cases right with
          | stop _ => rfl
          | expression _ =>
            dsimp only
            rw [loopEffort_eq h n hp]
        | false =>
          rw [if_neg (by decide)] at hp
          dsimp only
          split
          · rfl
          rename_i hat
          rw [if_neg hat] at hp
          obtain ⟨⟨right, p2⟩, h4, hp⟩ := M.bind_eq_ok.1 hp
          obtain ⟨t, -, hp⟩ := M.bind_eq_ok.1 hp
          rw [h4, parseUnknown_mono h.le _ _ _ _ _ h4, unknownEffort_eq h h4]
          dsimp only
          rw [loopEffort_eq h n hp]

theorem bodyEffort_eq (h : SameEffort c1 c2 e1 e2) {row : Row} {pos : Nat} {min : Power} {e : Ending}
    {r : PResult × Nat} (hp : prattBody c1 g row pos min e = .ok r) :
    bodyEffort c1 e1 g row pos min e = bodyEffort c2 e2 g row pos min e := by
  unfold bodyEffort
  obtain ⟨⟨s, p⟩, h1, hp⟩ := M.bind_eq_ok.1 hp
  rw [h1, prattStart_mono h.le _ _ _ _ _ h1, startEffort_eq h h1]
  cases s with
  | finished t => rfl
  | left t =>
    dsimp only
    rw [loopEffort_eq h _ hp]

theorem sameEffort_succ (g : Grammar) : ∀ f,
    SameEffort (pratt g f) (pratt g (f + 1)) (prattEffort g f) (prattEffort g (f + 1))
  | 0 => ⟨pratt_mono_succ g 0, by rintro row pos min e r ⟨⟩⟩
  | f + 1 => ⟨pratt_mono_succ g _, fun row pos min e r hr => by
      simp only [prattEffort]
      exact congrArg (1 + ·) (bodyEffort_eq (sameEffort_succ g f) hr)⟩

theorem prattEffort_le (g : Grammar) {f f' : Nat} (h : f ≤ f') {row : Row} {pos : Nat} {min : Power}
    {e : Ending} {r : PResult × Nat} (hr : pratt g f row pos min e = .ok r) :
    prattEffort g f row pos min e = prattEffort g f' row pos min e := by
  induction h with
  | refl => rfl
  | step h ih => rw [ih, (sameEffort_succ g _).eq _ _ _ _ _ (pratt_mono g h _ _ _ _ _ hr)]

end Aftermath
