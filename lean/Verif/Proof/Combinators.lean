import Verif.Model.Combinators
import Verif.Model.Effort
import Verif.Proof.ParseMono
import Verif.Proof.ParseTotal

/-! # The parsers written with combinators do what `Model/Parser.lean` says

and they make as many calls as `Model/Effort.lean` says. -/

namespace Aftermath.Chumsky

/-- The computation has the result `a` and makes `c` calls. -/
def Runs {α : Type} (x : C α) (a : α) (c : Nat) : Prop := ∀ k, x k = .ok (a, k + c)

theorem Runs.cost {α : Type} {x : C α} {a : α} {c d : Nat} (h : Runs x a c) (he : d = c) :
    Runs x a d := he ▸ h

theorem Runs.bind {α β : Type} {x : C α} {f : α → C β} {a : α} {b : β} {c d : Nat}
    (hx : Runs x a c) (hf : Runs (f a) b d) : Runs (x >>= f) b (c + d) := by
  intro k
  show (x k >>= fun r => f r.1 r.2) = _
  rw [hx k, M.ok_bind]
  show f a (k + c) = _
  rw [hf (k + c), Nat.add_assoc]

theorem runs_pure {α : Type} (a : α) : Runs (pure a : C α) a 0 := fun _ => rfl

theorem runs_lift {α : Type} {x : M α} {a : α} (h : x = .ok a) : Runs (C.lift x) a 0 := by
  intro k
  rw [h]
  rfl

theorem runs_tick : Runs C.tick () 1 := fun _ => rfl

/-- Behind a computation without calls. -/
theorem Runs.bind0 {α β : Type} {x : C α} {f : α → C β} {a : α} {b : β} {d : Nat}
    (hx : Runs x a 0) (hf : Runs (f a) b d) : Runs (x >>= f) b d :=
  (hx.bind hf).cost (by omega)

/-- In both modes the parser succeeds and stops at `p`, with `c` calls. -/
def Yields {α : Type} (P : Parser α) (row : Row) (pos : Nat) (a : α) (p : Nat)
    (c : Mode → Nat) : Prop :=
  ∀ m : Mode, Runs (P m row pos) (some (m.of a), p) (c m)

/-- In both modes the parser fails without a panic, with `c` calls. -/
def Fails {α : Type} (P : Parser α) (row : Row) (pos : Nat) (c : Mode → Nat) : Prop :=
  ∀ m : Mode, ∃ q, Runs (P m row pos) (none, q) (c m)

/-- No calls -/
def free : Mode → Nat := fun _ => 0

theorem runs_map {α β : Type} (m : Mode) {a : α} {f : α → C β} {b : β} {c : Nat}
    (h : Runs (f a) b c) : Runs (m.map (m.of a) f) (m.of b) (if m = .check then 0 else c) := by
  cases m with
  | emit => exact h
  | check => exact runs_pure _

theorem combine_of {α β γ : Type} (m : Mode) (a : α) (b : β) (f : α → β → γ) :
    m.combine (m.of a) (m.of b) f = m.of (f a b) := by
  cases m <;> rfl

/-! ## Combinators -/

section
variable {α β : Type} {row : Row} {pos p q : Nat} {c d e : Mode → Nat}

theorem then_yields {A : Parser α} {B : Parser β} {a : α} {b : β} (ha : Yields A row pos a p c)
    (hb : Yields B row p b q d) (he : ∀ m, e m = c m + d m) :
    Yields (A.then B) row pos (a, b) q e := by
  intro m
  unfold Parser.then
  refine ((ha m).bind ((hb m).bind (b := (some (m.of (a, b)), q)) (d := 0) ?_)).cost (he m)
  show Runs (pure (some (m.combine (m.of a) (m.of b) Prod.mk), q)) _ _
  rw [combine_of]
  exact runs_pure _

theorem then_fails_left {A : Parser α} (B : Parser β) (ha : Fails A row pos c) :
    Fails (A.then B) row pos c := by
  intro m
  obtain ⟨q, hq⟩ := ha m
  exact ⟨q, (hq.bind (runs_pure (α := Option (m.Out (α × β)) × Nat) (none, q))).cost rfl⟩

theorem then_fails_right {A : Parser α} {B : Parser β} {a : α} (ha : Yields A row pos a p c)
    (hb : Fails B row p d) (he : ∀ m, e m = c m + d m) : Fails (A.then B) row pos e := by
  intro m
  obtain ⟨q, hq⟩ := hb m
  refine ⟨q, ((ha m).bind (d := d m) ?_).cost (he m)⟩
  dsimp only
  exact (hq.bind (runs_pure (α := Option (m.Out (α × β)) × Nat) (none, q))).cost rfl

theorem mapWithSpanC_yields {A : Parser α} {f : α → Nat → Nat → C β} {a : α} {b : β} {k : Nat}
    (ha : Yields A row pos a p c) (hf : Runs (f a pos p) b k)
    (he : ∀ m, e m = c m + if m = .check then 0 else k) :
    Yields (A.mapWithSpanC f) row pos b p e := by
  intro m
  unfold Parser.mapWithSpanC
  refine ((ha m).bind (d := if m = .check then 0 else k) ?_).cost (he m)
  dsimp only
  refine ((runs_map m (f := fun x => f x pos p) hf).bind (d := 0) ?_).cost rfl
  exact runs_pure _

theorem mapWithSpanC_fails {A : Parser α} (f : α → Nat → Nat → C β) (ha : Fails A row pos c) :
    Fails (A.mapWithSpanC f) row pos c := by
  intro m
  obtain ⟨q, hq⟩ := ha m
  exact ⟨q, (hq.bind (runs_pure (α := Option (m.Out β) × Nat) (none, q))).cost rfl⟩

theorem mapWithSpan_yields {A : Parser α} {f : α → Nat → Nat → M β} {a : α} {b : β}
    (ha : Yields A row pos a p c) (hf : f a pos p = .ok b) :
    Yields (A.mapWithSpan f) row pos b p c :=
  mapWithSpanC_yields ha (runs_lift hf) (fun m => by split <;> rfl)

theorem mapWithSpan_fails {A : Parser α} (f : α → Nat → Nat → M β) (ha : Fails A row pos c) :
    Fails (A.mapWithSpan f) row pos c :=
  mapWithSpanC_fails _ ha

theorem mapM_yields {A : Parser α} {f : α → M β} {a : α} {b : β}
    (ha : Yields A row pos a p c) (hf : f a = .ok b) : Yields (A.mapM f) row pos b p c :=
  mapWithSpan_yields ha hf

theorem mapM_fails {A : Parser α} (f : α → M β) (ha : Fails A row pos c) :
    Fails (A.mapM f) row pos c :=
  mapWithSpan_fails _ ha

theorem map_yields {A : Parser α} (f : α → β) {a : α}
    (ha : Yields A row pos a p c) : Yields (A.map f) row pos (f a) p c :=
  mapM_yields ha rfl

theorem map_fails {A : Parser α} (f : α → β) (ha : Fails A row pos c) :
    Fails (A.map f) row pos c :=
  mapM_fails _ ha

theorem orNot_yields {A : Parser α} {a : α} (ha : Yields A row pos a p c) :
    Yields A.orNot row pos (some a) p c := by
  intro m
  unfold Parser.orNot
  refine ((ha m).bind (d := 0) ?_).cost rfl
  dsimp only
  refine ((runs_map m (f := fun x : α => (pure (some x) : C (Option α)))
    (runs_pure _)).bind (d := 0) ?_).cost ?_
  · exact runs_pure _
  · split <;> rfl

theorem orNot_fails {A : Parser α} (ha : Fails A row pos c) :
    Yields A.orNot row pos none pos c := by
  intro m
  obtain ⟨q, hq⟩ := ha m
  exact (hq.bind (runs_pure (α := Option (m.Out (Option α)) × Nat) (some (m.of none), pos))).cost rfl

theorem choice_yields {A : Parser α} (As : List (Parser α)) {a : α}
    (ha : Yields A row pos a p c) : Yields (choice (A :: As)) row pos a p c := by
  intro m
  refine ((ha m).bind (d := 0) ?_).cost rfl
  exact runs_pure _

theorem choice_next {A : Parser α} {As : List (Parser α)} {a : α} (ha : Fails A row pos c)
    (hs : Yields (choice As) row pos a p d) (he : ∀ m, e m = c m + d m) :
    Yields (choice (A :: As)) row pos a p e := by
  intro m
  obtain ⟨q, hq⟩ := ha m
  exact (hq.bind (hs m)).cost (he m)

theorem choice_fails {A : Parser α} {As : List (Parser α)} (ha : Fails A row pos c)
    (hs : Fails (choice As) row pos d) (he : ∀ m, e m = c m + d m) :
    Fails (choice (A :: As)) row pos e := by
  intro m
  obtain ⟨q, hq⟩ := ha m
  obtain ⟨q', hq'⟩ := hs m
  exact ⟨q', (hq.bind hq').cost (he m)⟩

theorem choice_nil : Fails (choice ([] : List (Parser α))) row pos free :=
  fun _ => ⟨pos, runs_pure _⟩

/-- The parser succeeds again and again and then fails. -/
inductive Steps (A : Parser α) (row : Row) : Nat → List α → Nat → (Mode → Nat) → Prop
  | done {pos : Nat} {c : Mode → Nat} : Fails A row pos c → Steps A row pos [] pos c
  | more {pos p q : Nat} {x : α} {xs : List α} {c d e : Mode → Nat} : Yields A row pos x p c →
      p ≠ pos → Steps A row p xs q d → (∀ m, e m = c m + d m) → Steps A row pos (x :: xs) q e

theorem collectLoop_steps {A : Parser α} {xs : List α} (h : Steps A row pos xs q c) (l : Nat)
    (m : Mode) : ∀ (n count : Nat) (acc : List α), xs.length < n → l ≤ count + xs.length →
    Runs (collectLoop A l m row n count (m.of acc) pos) (some (m.of (acc ++ xs)), q) (c m) := by
  induction h with
  | done hf =>
    intro n count acc hn hk
    obtain ⟨n, rfl⟩ : ∃ n', n = n' + 1 := ⟨n - 1, by simp at hn; omega⟩
    obtain ⟨q, hq⟩ := hf m
    simp only [List.length_nil, Nat.add_zero] at hk
    rw [List.append_nil]
    refine (hq.bind (d := 0) ?_).cost rfl
    simp only [hk, if_true]
    exact runs_pure _
  | @more _ _ _ x _ _ _ _ hy hp hs he ih =>
    intro n count acc hn hk
    obtain ⟨n, rfl⟩ : ∃ n', n = n' + 1 := ⟨n - 1, by omega⟩
    simp only [List.length_cons] at hn hk
    refine ((hy m).bind ?_).cost (he m)
    simp only [hp, if_false, combine_of]
    have := ih n (count + 1) (acc ++ [x]) (by omega) (by omega)
    rw [List.append_assoc] at this
    exact this

theorem collectLoop_none {A : Parser α} (h : Fails A row pos c) {l : Nat} (hl : 0 < l) (m : Mode)
    (n : Nat) (acc : List α) :
    Runs (collectLoop A l m row (n + 1) 0 (m.of acc) pos) (none, pos) (c m) := by
  obtain ⟨q, hq⟩ := h m
  refine (hq.bind (d := 0) ?_).cost rfl
  simp only [Nat.not_le.2 hl, if_false]
  exact runs_pure _

theorem repeatedAtLeast_yields {A : Parser α} {xs : List α} (h : Steps A row pos xs q c) {l : Nat}
    (hk : l ≤ xs.length) (hl : xs.length ≤ row.length) :
    Yields (A.repeatedAtLeast l) row pos xs q c := by
  intro m
  exact collectLoop_steps h l m _ _ [] (by omega) (by omega)

theorem repeated_yields {A : Parser α} {xs : List α} (h : Steps A row pos xs q c)
    (hl : xs.length ≤ row.length) : Yields A.repeated row pos xs q c :=
  repeatedAtLeast_yields h (by omega) hl

theorem select_yields {f : Node → Option α} {n : Node} {a : α} (hn : row[pos]? = some n)
    (hf : f n = some a) : Yields (select f) row pos a (pos + 1) free := by
  intro m
  simp only [select, next, hn, hf]
  exact runs_pure _

theorem select_fails {f : Node → Option α} (h : ∀ n, row[pos]? = some n → f n = none) :
    Fails (select f) row pos free := by
  intro m
  cases hn : row[pos]? with
  | none => exact ⟨pos, by simp only [select, next, hn]; exact runs_pure _⟩
  | some n => exact ⟨pos + 1, by simp only [select, next, hn, h n hn]; exact runs_pure _⟩

end

/-! ## Symbols -/

theorem select_symbol {f : Str → Bool} {row : Row} {pos p : Nat} {s : Str}
    (h : selectSym f row pos = some (s, p)) : Yields (select (symbolIf f)) row pos s p free := by
  obtain ⟨-, hf, hr, rfl⟩ := selectSym_spec h
  exact select_yields hr (by simp [symbolIf, hf])

theorem selectSym_none {f : Str → Bool} {row : Row} {pos : Nat}
    (h : selectSym f row pos = none) (n : Node) (hn : row[pos]? = some n) :
    symbolIf f n = none := by
  unfold selectSym at h
  rw [hn] at h
  cases n with
  | container => rfl
  | symbol t =>
    simp only at h
    by_cases hf : f t
    · simp [hf] at h
    · simp [symbolIf, hf]

theorem select_symbol_fails {f : Str → Bool} {row : Row} {pos : Nat}
    (h : selectSym f row pos = none) : Fails (select (symbolIf f)) row pos free :=
  select_fails (selectSym_none h)

theorem justSymbol_yields {row : Row} {pos p : Nat} {s t : Str}
    (h : selectSym (fun x => x == t) row pos = some (s, p)) :
    Yields (justSymbol t) row pos s p free := by
  obtain ⟨-, hf, hr, rfl⟩ := selectSym_spec h
  have ht : s = t := by simpa using hf
  subst ht
  refine mapM_yields (a := [.symbol s]) ?_ rfl
  intro m
  simp only [just, justLoop, next, hr, if_true]
  exact runs_pure _

theorem justSymbol_fails {row : Row} {pos : Nat} {t : Str}
    (h : selectSym (fun x => x == t) row pos = none) : Fails (justSymbol t) row pos free := by
  refine mapM_fails _ ?_
  intro m
  cases hr : row[pos]? with
  | none => exact ⟨pos, by simp only [just, justLoop, next, hr]; exact runs_pure _⟩
  | some n =>
    have hn : n ≠ .symbol t := by
      rintro rfl
      simp [selectSym, hr] at h
    exact ⟨pos + 1, by
      simp only [just, justLoop, next, hr, hn, if_false]; exact runs_pure _⟩

theorem justLoop_eq (row : Row) : ∀ (ns : List Node) (pos : Nat),
    (ns.isPrefixOf (row.drop pos) = true → justLoop ns row pos = (true, pos + ns.length)) ∧
      (ns.isPrefixOf (row.drop pos) = false → (justLoop ns row pos).1 = false)
  | [], pos => by simp [justLoop]
  | n :: ns, pos => by
    cases hr : row[pos]? with
    | none =>
      have : row.drop pos = [] := List.drop_eq_nil_of_le (List.getElem?_eq_none_iff.1 hr)
      simp [justLoop, next, hr, this]
    | some n' =>
      obtain ⟨hlt, he⟩ := List.getElem?_eq_some_iff.1 hr
      have ih := justLoop_eq row ns (pos + 1)
      rw [List.drop_eq_getElem_cons hlt, he]
      by_cases hn : n' = n
      · subst hn
        simp only [List.isPrefixOf, beq_self_eq_true, Bool.true_and, justLoop, next, hr, if_true,
          List.length_cons]
        refine ⟨fun h => ?_, ih.2⟩
        rw [ih.1 h]
        simp only [Prod.mk.injEq, true_and]
        omega
      · have hb : (n == n') = false := by simpa using fun h : n = n' => hn h.symm
        simp [List.isPrefixOf, hb, justLoop, next, hr, hn]

theorem symbolTexts_map (ss : List Str) : symbolTexts (ss.map .symbol) = .ok ss.flatten := by
  induction ss with
  | nil => rfl
  | cons s ss ih => simp [symbolTexts, symbolText, ih]

theorem justSymbols_yields {ss : List Str} {row : Row} {pos p : Nat} {s : Str}
    (h : Aftermath.justSymbols ss row pos = some (s, p)) :
    Yields (justSymbols ss) row pos s p free := by
  unfold Aftermath.justSymbols at h
  split at h
  · rename_i hp
    cases h
    refine mapM_yields (a := ss.map Node.symbol) (fun m => ?_) (symbolTexts_map ss)
    simp only [just, (justLoop_eq row _ pos).1 hp, List.length_map]
    exact runs_pure _
  · cases h

theorem justSymbols_fails {ss : List Str} {row : Row} {pos : Nat}
    (h : Aftermath.justSymbols ss row pos = none) : Fails (justSymbols ss) row pos free := by
  unfold Aftermath.justSymbols at h
  split at h
  · cases h
  · rename_i hp
    refine mapM_fails _ fun m => ?_
    have := (justLoop_eq row (ss.map Node.symbol) pos).2 (Bool.eq_false_iff.2 hp)
    refine ⟨(justLoop (ss.map Node.symbol) row pos).2, ?_⟩
    simp only [just]
    split
    · rename_i hj; rw [hj] at this; cases this
    · rename_i hj; rw [hj]; exact runs_pure _

theorem symRun_steps (f : Str → Bool) (row : Row) : ∀ (l : List Node) (pos : Nat),
    row.drop pos = l →
      Steps (select (symbolIf f)) row pos (symRun f l) (pos + (symRun f l).length)
        free
  | [], pos, h => by
    simp only [symRun, List.length_nil, Nat.add_zero]
    refine .done (select_fails fun n hn => ?_)
    rw [List.getElem?_eq_none (List.drop_eq_nil_iff.1 h)] at hn
    cases hn
  | n :: l, pos, h => by
    have hr : row[pos]? = some n := by
      rw [← Nat.add_zero pos, ← List.getElem?_drop, h]; rfl
    have hd : row.drop (pos + 1) = l := by
      rw [← List.drop_drop, h]; rfl
    cases n with
    | container =>
      simp only [symRun, List.length_nil, Nat.add_zero]
      refine .done (select_fails fun n hn => ?_)
      rw [hr] at hn
      cases hn
      rfl
    | symbol s =>
      rw [symRun]
      split
      · rename_i hf
        have := symRun_steps f row l (pos + 1) hd
        simp only [List.length_cons]
        rw [← Nat.add_assoc, Nat.add_right_comm]
        exact .more (select_yields hr (by simp [symbolIf, hf])) (by omega) this
          (fun _ => rfl)
      · rename_i hf
        simp only [List.length_nil, Nat.add_zero]
        refine .done (select_fails fun n hn => ?_)
        rw [hr] at hn
        cases hn
        simp [symbolIf, hf]

theorem symRun_length (f : Str → Bool) (row : Row) (pos : Nat) :
    (symRun f (row.drop pos)).length ≤ row.length :=
  Nat.le_trans (symRun_spec f _).2 (by simp)

theorem symRun_repeated (f : Str → Bool) (row : Row) (pos : Nat) :
    Yields (select (symbolIf f)).repeated row pos (symRun f (row.drop pos))
      (pos + (symRun f (row.drop pos)).length) free :=
  repeated_yields (symRun_steps f row _ pos rfl) (symRun_length f row pos)

/-! ## Tokens -/

/-- The parser does what the model function says, wherever that does not panic. -/
structure Agrees {α : Type} (P : Parser α) (row : Row) (pos : Nat)
    (x : M (Option (α × Nat))) (c : Mode → Nat) : Prop where
  yields : ∀ a p, x = .ok (some (a, p)) → Yields P row pos a p c
  fails : x = .ok none → Fails P row pos c

theorem variable_agrees (g : Grammar) (row : Row) (pos : Nat) :
    Agrees (variableParser g) row pos (.ok (parseVariable g row pos)) free := by
  unfold parseVariable
  cases h : selectSym (isIdentifierStart g) row pos with
  | none =>
    refine ⟨fun a p he => (by cases he), fun _ => ?_⟩
    exact map_fails _ (then_fails_left _ (select_symbol_fails h))
  | some r =>
    obtain ⟨s, p1⟩ := r
    refine ⟨fun a p he => ?_, fun he => (by cases he)⟩
    cases he
    exact map_yields (fun v : Str × List Str => SChildren.leaf .symbol ([v.1] ++ v.2))
      (then_yields (select_symbol h) (symRun_repeated _ row p1) (fun _ => rfl))

theorem digits_yields {row : Row} {pos p : Nat} {ds : List Str}
    (h : numberDigits row pos = some (ds, p)) : Yields digits row pos ds p free := by
  unfold numberDigits at h
  simp only at h
  split at h
  · cases h
  · rename_i hne
    cases h
    refine repeatedAtLeast_yields (symRun_steps _ row _ pos rfl) ?_ (symRun_length _ row pos)
    cases hs : symRun isDigits (row.drop pos) with
    | nil => simp [hs] at hne
    | cons => simp

theorem digits_fails {row : Row} {pos : Nat} (h : numberDigits row pos = none) :
    Fails digits row pos free := by
  unfold numberDigits at h
  simp only at h
  split at h
  · rename_i he
    have hs := symRun_steps isDigits row _ pos rfl
    rw [List.isEmpty_iff.1 he] at hs
    intro m
    refine ⟨pos, collectLoop_none ?_ (by omega) m _ _⟩
    cases hs with
    | done hf => exact hf
  · cases h

theorem number_agrees (row : Row) (pos : Nat) :
    Agrees numberParser row pos (.ok (parseNumber row pos)) free := by
  unfold parseNumber
  cases h : numberDigits row pos with
  | none =>
    refine ⟨fun a p he => (by cases he), fun _ => ?_⟩
    exact map_fails _ (map_fails _ (then_fails_left _ (digits_fails h)))
  | some r =>
    obtain ⟨a, p1⟩ := r
    have key : ∀ (o : Option (Str × List Str)) (p : Nat),
        Yields ((justSymbol ['.']).then digits).orNot row p1 o p free →
        Yields numberParser row pos (.leaf .symbol (numberSymbols (a, o))) p free := fun o p ho =>
      map_yields (fun v => SChildren.leaf .symbol v)
        (map_yields numberSymbols (then_yields (digits_yields h) ho (fun _ => rfl)))
    cases hf : parseFractional row p1 with
    | none =>
      refine ⟨fun a' p he => ?_, fun he => ?_⟩
      · simp only [Option.bind_eq_bind, Option.bind_some, hf] at he
        cases he
        refine key none _ (orNot_fails ?_)
        unfold parseFractional at hf
        cases hd : selectSym (fun s => s == ['.']) row p1 with
        | none => exact then_fails_left _ (justSymbol_fails hd)
        | some r =>
          obtain ⟨c, p2⟩ := r
          refine then_fails_right (justSymbol_yields hd) (digits_fails ?_) (fun _ => rfl)
          cases hn : numberDigits row p2 with
          | none => rfl
          | some r => simp [hd, hn] at hf
      · simp [hf] at he
    | some r =>
      obtain ⟨d, p2⟩ := r
      refine ⟨fun a' p he => ?_, fun he => ?_⟩
      · simp only [Option.bind_eq_bind, Option.bind_some, hf] at he
        cases he
        unfold parseFractional at hf
        cases hd : selectSym (fun s => s == ['.']) row p1 with
        | none => simp [hd] at hf
        | some r =>
          obtain ⟨c, p3⟩ := r
          cases hn : numberDigits row p3 with
          | none => simp [hd, hn] at hf
          | some r =>
            obtain ⟨e, p4⟩ := r
            simp only [hd, hn, Option.bind_eq_bind, Option.bind_some, Option.some.injEq,
              Prod.mk.injEq] at hf
            obtain ⟨rfl, rfl⟩ := hf
            have := key (some (c, e)) _
              (orNot_yields (then_yields (justSymbol_yields hd) (digits_yields hn) (fun _ => rfl)))
            simpa [numberSymbols] using this
      · simp [hf] at he

theorem stringPieces_steps (row : Row) : ∀ (l : List Node) (pos : Nat), row.drop pos = l →
    ∃ ps, Steps stringPiece row pos ps (pos + (stringBody l).length) free ∧
      stringPieces ps = stringBody l ∧ ps.length ≤ (stringBody l).length
  | [], pos, h => by
    have hn : ∀ n, row[pos]? ≠ some n := by
      intro n hn
      rw [List.getElem?_eq_none (List.drop_eq_nil_iff.1 h)] at hn
      cases hn
    refine ⟨[], ?_, by simp [stringPieces, stringBody], by simp⟩
    simp only [stringBody, List.length_nil, Nat.add_zero]
    refine .done (choice_fails (map_fails _ (select_fails fun n h => absurd h (hn n)))
      (choice_fails (map_fails _ (then_fails_left _ (justSymbol_fails ?_))) choice_nil fun _ => rfl)
      fun _ => rfl)
    unfold selectSym
    cases hr : row[pos]? with
    | none => rfl
    | some n => exact absurd hr (hn n)
  | .container v cells w :: l, pos, h => by
    have hr : row[pos]? = some (.container v cells w) := by
      rw [← Nat.add_zero pos, ← List.getElem?_drop, h]; rfl
    refine ⟨[], ?_, by simp [stringPieces, stringBody], by simp⟩
    simp only [stringBody, List.length_nil, Nat.add_zero]
    refine .done (choice_fails (map_fails _ (select_fails fun n h => ?_))
      (choice_fails (map_fails _ (then_fails_left _ (justSymbol_fails ?_))) choice_nil fun _ => rfl)
      fun _ => rfl)
    · rw [hr] at h
      cases h
      rfl
    · simp [selectSym, hr]
  | .symbol s :: l, pos, h => by
    have hr : row[pos]? = some (.symbol s) := by
      rw [← Nat.add_zero pos, ← List.getElem?_drop, h]; rfl
    have hd : row.drop (pos + 1) = l := by
      rw [← List.drop_drop, h]; rfl
    rw [stringBody.eq_def]
    simp only
    by_cases h1 : (s == ['\\']) = true
    · have hs : s = ['\\'] := by simpa using h1
      have hsel : selectSym (fun x => x == ['\\']) row pos = some (s, pos + 1) := by
        simp [selectSym, hr, hs]
      have hfirst : Fails ((select (symbolIf fun a => a != ['"'] && a != ['\\'])).map
          fun a => (a, (none : Option Str))) row pos free := by
        refine map_fails _ (select_fails fun n h => ?_)
        rw [hr] at h
        cases h
        simp [symbolIf, hs]
      simp only [h1, if_true]
      have hstop : (∀ b l', l ≠ .symbol b :: l') → Steps stringPiece row pos [] pos free := by
        intro hl
        refine .done (choice_fails hfirst (choice_fails (map_fails _
          (then_fails_right (justSymbol_yields hsel) (select_fails fun n hn => ?_) (fun _ => rfl)))
          choice_nil fun _ => rfl) fun _ => rfl)
        cases n with
        | container => rfl
        | symbol b =>
          obtain ⟨hlt, he⟩ := List.getElem?_eq_some_iff.1 hn
          rw [List.drop_eq_getElem_cons hlt, he] at hd
          exact absurd hd.symm (hl b _)
      cases l with
      | nil =>
        exact ⟨[], by simpa using hstop (by simp), by simp [stringPieces], by simp⟩
      | cons n l' =>
        cases n with
        | container =>
          exact ⟨[], by simpa using hstop (by simp), by simp [stringPieces], by simp⟩
        | symbol b =>
          have hr' : row[pos + 1]? = some (.symbol b) := by
            rw [← Nat.add_zero (pos + 1), ← List.getElem?_drop, hd]; rfl
          have hd' : row.drop (pos + 2) = l' := by
            rw [show pos + 2 = pos + 1 + 1 from rfl, ← List.drop_drop, hd]; rfl
          obtain ⟨ps, h3, h4, h5⟩ := stringPieces_steps row l' (pos + 2) hd'
          refine ⟨(s, some b) :: ps, ?_, by simp [stringPieces, h4], by simp; omega⟩
          have hy : Yields stringPiece row pos (s, some b) (pos + 1 + 1) free :=
            choice_next hfirst (choice_yields _
              (map_yields (fun ab : Str × Str => (ab.1, some ab.2)) (then_yields
                (justSymbol_yields hsel) (select_yields hr' (a := b) (by simp [symbolIf]))
                (fun _ => rfl)))) (fun _ => rfl)
          have he : pos + (s :: b :: stringBody l').length = pos + 2 + (stringBody l').length := by
            simp; omega
          rw [he]
          exact .more hy (by omega) h3 (fun _ => rfl)
    · have h1' : s ≠ ['\\'] := by simpa using h1
      simp only [h1]
      by_cases h2 : (s == ['"']) = true
      · have hs : s = ['"'] := by simpa using h2
        refine ⟨[], ?_, by simp [h2, stringPieces], by simp⟩
        simp only [h2, if_true, List.length_nil, Nat.add_zero, if_false, Bool.false_eq_true]
        refine .done (choice_fails (map_fails _ (select_fails fun n h => ?_))
          (choice_fails (map_fails _ (then_fails_left _ (justSymbol_fails ?_))) choice_nil fun _ => rfl)
      fun _ => rfl)
        · rw [hr] at h
          cases h
          simp [symbolIf, hs]
        · simp [selectSym, hr, h1']
      · have h2' : s ≠ ['"'] := by simpa using h2
        obtain ⟨ps, h3, h4, h5⟩ := stringPieces_steps row l (pos + 1) hd
        simp only [h2, if_false, Bool.false_eq_true]
        refine ⟨(s, none) :: ps, ?_, by simp [stringPieces, h4], by simp; omega⟩
        have hy : Yields stringPiece row pos (s, none) (pos + 1) free :=
          choice_yields _ (map_yields (fun a : Str => (a, (none : Option Str)))
            (select_yields hr (by simp [symbolIf, h1', h2'])))
        have he : pos + (s :: stringBody l).length = pos + 1 + (stringBody l).length := by
          simp; omega
        rw [he]
        exact .more hy (by omega) h3 (fun _ => rfl)

theorem string_agrees (row : Row) (pos : Nat) :
    Agrees stringParser row pos (.ok (parseString row pos)) free := by
  unfold parseString
  cases h : selectSym (fun s => s == ['"']) row pos with
  | none =>
    refine ⟨fun a p he => (by cases he), fun _ => ?_⟩
    exact map_fails _ (then_fails_left _ (then_fails_left _ (justSymbol_fails h)))
  | some r =>
    obtain ⟨a, p1⟩ := r
    obtain ⟨ps, h3, h4, h5⟩ := stringPieces_steps row _ p1 rfl
    have hl : ps.length ≤ row.length :=
      Nat.le_trans h5 (Nat.le_trans (stringBody_spec _).2 (by simp))
    have hb := then_yields (justSymbol_yields h) (repeated_yields h3 hl) (e := free) (fun _ => rfl)
    cases hc : selectSym (fun s => s == ['"']) row (p1 + (stringBody (row.drop p1)).length) with
    | none =>
      refine ⟨fun a p he => ?_, fun _ => ?_⟩
      · simp [hc] at he
      · exact map_fails _ (then_fails_right hb (justSymbol_fails hc) (fun _ => rfl))
    | some r =>
      obtain ⟨c, p2⟩ := r
      refine ⟨fun a' p he => ?_, fun he => ?_⟩
      · simp only [Option.bind_eq_bind, Option.bind_some, hc, Except.ok.injEq, Option.some.injEq,
          Prod.mk.injEq] at he
        obtain ⟨rfl, rfl⟩ := he
        have := map_yields (fun v : (Str × List (Str × Option Str)) × Str =>
          SChildren.leaf .symbol ([v.1.1] ++ stringPieces v.1.2 ++ [v.2]))
          (then_yields hb (justSymbol_yields hc) (e := free) (fun _ => rfl))
        rw [h4] at this
        exact this
      · simp [hc] at he

/-! ## Tokens with calls -/

/-- `c2` has the same results as `c1` wherever `c1` has one, and `eff` is the number of calls. -/
def Counts (c1 : Rec) (eff : RecEffort) (c2 : CRec) : Prop :=
  ∀ row pos min e r, c1 row pos min e = .ok r → Runs (c2 row pos min e) r (eff row pos min e)

/-- Whether closures are left out. -/
def Mode.isCheck : Mode → Bool
  | .emit => false
  | .check => true

section
variable {c1 : Rec} {eff : RecEffort} {c2 : CRec}

theorem callPratt_yields (h : Counts c1 eff c2) {row : Row} {pos p : Nat} {min : Power} {e : Ending}
    {r : PResult} (hr : c1 row pos min e = .ok (r, p)) :
    Yields (callPratt c2 min e) row pos r.node p (fun _ => eff row pos min e) := by
  intro m
  refine (Runs.bind (a := (r.node, p)) (c := eff row pos min e) (d := 0) ?_ ?_).cost rfl
  · refine ((h _ _ _ _ _ hr).bind (d := 0) ?_).cost rfl
    exact runs_pure _
  · exact runs_pure _

theorem spanned_yields {row : Row} {pos p : Nat} {s t : Str}
    (h : selectSym (fun x => x == t) row pos = some (s, p)) :
    Yields (spanned t) row pos (s, pos, p) p free :=
  mapWithSpan_yields (justSymbol_yields h) rfl

theorem spanned_fails {row : Row} {pos : Nat} {t : Str}
    (h : selectSym (fun x => x == t) row pos = none) : Fails (spanned t) row pos free :=
  mapWithSpan_fails _ (justSymbol_fails h)

theorem brackets_agrees (h : Counts c1 eff c2) (n : Nat) (o c : Str) (row : Row) (pos : Nat) :
    Agrees (bracketsParser c2 n o c) row pos (parseBrackets c1 n o c row pos)
      (fun _ => bracketsEffort eff o c row pos) := by
  unfold parseBrackets bracketsEffort
  cases ho : selectSym (fun s => s == o) row pos with
  | none =>
    refine ⟨fun a p he => (by cases he), fun _ => ?_⟩
    exact mapM_fails _ (then_fails_left _ (then_fails_left _ (spanned_fails ho)))
  | some r =>
    obtain ⟨l, p1⟩ := r
    simp only
    cases hc : c1 row p1 (0, .weak) (.sym c) with
    | error => exact ⟨fun a p he => (by cases he), fun he => (by cases he)⟩
    | ok r =>
      obtain ⟨child, p2⟩ := r
      have hb := then_yields (spanned_yields ho) (callPratt_yields h hc)
        (e := fun _ => eff row p1 (0, .weak) (.sym c)) (fun m => by simp [free])
      simp only [M.ok_bind]
      cases hr : selectSym (fun s => s == c) row p2 with
      | none =>
        refine ⟨fun a p he => (by cases he), fun _ => ?_⟩
        exact mapM_fails _ (then_fails_right hb (spanned_fails hr) (fun _ => rfl))
      | some r =>
        obtain ⟨r, p3⟩ := r
        simp only
        refine ⟨fun a p he => ?_, fun he => ?_⟩
        · obtain ⟨left, hl, he⟩ := M.bind_eq_ok.1 he
          obtain ⟨right, hr', he⟩ := M.bind_eq_ok.1 he
          cases he
          refine mapM_yields (then_yields hb (spanned_yields hr) (fun _ => rfl)) ?_
          simp only [bracketsNode, hl, hr', M.ok_bind]
        · obtain ⟨left, hl, he⟩ := M.bind_eq_ok.1 he
          obtain ⟨right, hr', he⟩ := M.bind_eq_ok.1 he
          cases he

theorem emptyBrackets_agrees (n : Nat) (o c : Str) (row : Row) (pos : Nat) :
    Agrees (emptyBracketsParser n o c) row pos (parseEmptyBrackets n o c row pos) free := by
  unfold parseEmptyBrackets
  cases ho : selectSym (fun s => s == o) row pos with
  | none =>
    refine ⟨fun a p he => (by cases he), fun _ => ?_⟩
    exact mapM_fails _ (then_fails_left _ (spanned_fails ho))
  | some r =>
    obtain ⟨l, p1⟩ := r
    simp only
    cases hr : selectSym (fun s => s == c) row p1 with
    | none =>
      refine ⟨fun a p he => (by cases he), fun _ => ?_⟩
      exact mapM_fails _ (then_fails_right (spanned_yields ho) (spanned_fails hr) (fun _ => rfl))
    | some r =>
      obtain ⟨r, p2⟩ := r
      simp only
      refine ⟨fun a p he => ?_, fun he => ?_⟩
      · obtain ⟨left, hl, he⟩ := M.bind_eq_ok.1 he
        obtain ⟨right, hr', he⟩ := M.bind_eq_ok.1 he
        cases he
        refine mapM_yields (then_yields (spanned_yields ho) (spanned_yields hr) (fun _ => rfl)) ?_
        simp only [emptyBracketsNode, hl, hr', M.ok_bind]
      · obtain ⟨left, hl, he⟩ := M.bind_eq_ok.1 he
        obtain ⟨right, hr', he⟩ := M.bind_eq_ok.1 he
        cases he

theorem parseRow_of (h : Counts c1 eff c2) {row : Row} {t : SNode}
    (hr : parseWhole c1 row = .ok t) :
    Runs (parseRow c2 row) t (eff row 0 (0, .weak) .eof) := by
  unfold parseWhole at hr
  obtain ⟨⟨r, p⟩, hc, hr⟩ := M.bind_eq_ok.1 hr
  simp only at hr
  split at hr
  · rename_i hp
    cases hr
    have he : Yields ending row p () p free := by
      intro m
      rw [hp]
      have hn : row[row.length]? = none := by simp
      simp only [ending, next, hn]
      exact runs_pure _
    have := then_yields (callPratt_yields h hc) he (e := fun _ => eff row 0 (0, .weak) .eof)
      (fun _ => rfl) .emit
    refine Runs.cost (Runs.bind (a := some r.node) (d := 0) ?_ ?_) (c := _ + 0) rfl
    · refine Runs.cost (Runs.bind this (d := 0) ?_) rfl
      exact runs_pure _
    · exact runs_pure _
  · cases hr

theorem parseRows_of (h : Counts c1 eff c2) : ∀ {cells : List Row} {ts : List SNode},
    parseCells c1 cells = .ok ts → Runs (parseRows c2 cells) ts (cellsEffort eff cells)
  | [], ts, hr => by cases hr; exact runs_pure _
  | r :: rs, ts, hr => by
    unfold parseCells at hr
    obtain ⟨t, ht, hr⟩ := M.bind_eq_ok.1 hr
    obtain ⟨ts', hts, hr⟩ := M.bind_eq_ok.1 hr
    cases hr
    refine (parseRow_of h ht).bind ?_
    refine ((parseRows_of h hts).bind (d := 0) ?_).cost rfl
    exact runs_pure _

theorem container_agrees (h : Counts c1 eff c2) (v : Variant) (row : Row) (pos : Nat) :
    Agrees (containerParser c2 v) row pos (parseContainer c1 v row pos)
      (fun m => containerEffort eff m.isCheck v row pos) := by
  have hfail : (∀ n, row[pos]? = some n → containerOf v n = none) →
      Fails (containerParser c2 v) row pos free := fun hn => mapWithSpanC_fails _ (select_fails hn)
  unfold parseContainer containerEffort
  cases hr : row[pos]? with
  | none =>
    exact ⟨fun a p he => (by cases he), fun _ => hfail fun n hn => (by rw [hr] at hn; cases hn)⟩
  | some n =>
    cases n with
    | symbol s =>
      refine ⟨fun a p he => (by cases he), fun _ => hfail fun n hn => ?_⟩
      rw [hr] at hn
      cases hn
      rfl
    | container v' cells w =>
      simp only
      split
      · rename_i hv
        refine ⟨fun a p he => ?_, fun he => ?_⟩
        · obtain ⟨ts, hts, he⟩ := M.bind_eq_ok.1 he
          obtain ⟨grid, hg, he⟩ := M.bind_eq_ok.1 he
          cases he
          refine mapWithSpanC_yields (k := cellsEffort eff cells)
            (select_yields hr (a := (cells, w)) (by simp [containerOf, hv])) ?_ ?_
          · refine ((parseRows_of h hts).bind (d := 0) ?_).cost rfl
            exact (runs_lift hg).bind0 (runs_pure _)
          · intro m
            cases m <;> simp [free, Mode.isCheck]
        · obtain ⟨ts, hts, he⟩ := M.bind_eq_ok.1 he
          obtain ⟨grid, hg, he⟩ := M.bind_eq_ok.1 he
          cases he
      · rename_i hv
        refine ⟨fun a p he => (by cases he), fun _ => hfail fun n hn => ?_⟩
        rw [hr] at hn
        cases hn
        simp [containerOf, hv]

theorem token_agrees (h : Counts c1 eff c2) (g : Grammar) (tp : TokenParser) (row : Row)
    (pos : Nat) :
    Agrees (tokenParser c2 g tp) row pos (tokenParse c1 g tp row pos)
      (fun m => tokenEffort eff m.isCheck tp row pos) := by
  cases tp with
  | symbols ss ty =>
    simp only [tokenParse, tokenParser, symbolsParser]
    cases hs : Aftermath.justSymbols ss row pos with
    | none =>
      exact ⟨fun a p he => (by cases he), fun _ => map_fails _ (justSymbols_fails hs)⟩
    | some r =>
      obtain ⟨s, p⟩ := r
      refine ⟨fun a p he => ?_, fun he => (by cases he)⟩
      cases he
      exact map_yields (fun v => SChildren.leaf ty [v]) (justSymbols_yields hs)
  | brackets n o c => exact brackets_agrees h n o c row pos
  | emptyBrackets n o c => exact emptyBrackets_agrees n o c row pos
  | container v => exact container_agrees h v row pos
  | «variable» => exact variable_agrees g row pos
  | number => exact number_agrees row pos
  | string => exact string_agrees row pos

/-! ## Rules -/

theorem spaces_yields {g : Grammar} {row : Row} {pos p : Nat} {o : Option SNode}
    (h : parseSpaces g row pos = .ok (o, p)) : Yields (spaceParser g) row pos o p free := by
  have hr := symRun_repeated (fun s => s == [' ']) row pos
  unfold parseSpaces at h
  simp only at h
  split at h
  · rename_i he
    cases h
    have hl : (symRun (fun s => s == [' ']) (row.drop pos)).length = 0 := by
      rw [List.isEmpty_iff.1 he]; rfl
    rw [hl, Nat.add_zero] at hr
    exact mapWithSpan_yields hr (by rw [spacesNode, if_pos he])
  · rename_i he
    obtain ⟨node, hn, h⟩ := M.bind_eq_ok.1 h
    cases h
    exact mapWithSpan_yields hr (by rw [spacesNode, if_neg he, hn]; rfl)

theorem script_agrees (h : Counts c1 eff c2) (g : Grammar) (v : Variant) (name : Nat) (row : Row)
    (pos : Nat) :
    (∀ s p, parseScript c1 g v row pos = .ok (some (s, p)) →
      Yields (scriptParser c2 g v name) row pos (s, name) p
        (fun m => containerEffort eff m.isCheck v row pos) ∧ pos < p) ∧
    (parseScript c1 g v row pos = .ok none →
      Fails (scriptParser c2 g v name) row pos
        (fun m => containerEffort eff m.isCheck v row pos)) := by
  have hc := container_agrees h v row pos
  unfold parseScript
  cases hp : parseContainer c1 v row pos with
  | error => exact ⟨fun s p he => (by cases he), fun he => (by cases he)⟩
  | ok r =>
    cases r with
    | none =>
      refine ⟨fun s p he => (by cases he), fun _ => ?_⟩
      exact mapWithSpan_fails _ (then_fails_left _ (mapWithSpan_fails _ (hc.fails hp)))
    | some r =>
      obtain ⟨c, p1⟩ := r
      simp only [M.ok_bind]
      have hlt : p1 = pos + 1 := by
        unfold parseContainer at hp
        split at hp
        · split at hp
          · obtain ⟨ts, -, hp⟩ := M.bind_eq_ok.1 hp
            obtain ⟨grid, -, hp⟩ := M.bind_eq_ok.1 hp
            cases hp
            rfl
          · cases hp
        · cases hp
      refine ⟨fun s p he => ?_, fun he => ?_⟩
      · obtain ⟨node, hn, he⟩ := M.bind_eq_ok.1 he
        obtain ⟨⟨after, p2⟩, hs, he⟩ := M.bind_eq_ok.1 he
        obtain ⟨node', hw, he⟩ := M.bind_eq_ok.1 he
        cases he
        refine ⟨mapWithSpan_yields (then_yields (mapWithSpan_yields (hc.yields _ _ hp) hn)
          (spaces_yields hs) (fun _ => rfl)) (by rw [hw]; rfl), ?_⟩
        have : p1 ≤ p2 := by
          unfold parseSpaces at hs
          simp only at hs
          split at hs
          · cases hs; exact Nat.le_refl _
          · obtain ⟨_, -, hs⟩ := M.bind_eq_ok.1 hs
            cases hs
            omega
        omega
      · obtain ⟨node, hn, he⟩ := M.bind_eq_ok.1 he
        obtain ⟨⟨after, p2⟩, hs, he⟩ := M.bind_eq_ok.1 he
        obtain ⟨node', hw, he⟩ := M.bind_eq_ok.1 he
        cases he

theorem scripts_steps (h : Counts c1 eff c2) (g : Grammar) (row : Row) : ∀ (n : Nat)
    (node t : SNode) (pos p : Nat), parseScripts c1 g row n node pos = .ok (t, p) →
    ∃ xs, Steps (choice [scriptParser c2 g .sub g.builtIn.sub,
        scriptParser c2 g .sup g.builtIn.sup]) row pos xs p
        (fun m => scriptsEffort c1 eff m.isCheck g row n pos) ∧
      wrapScripts node xs = .ok t ∧ xs.length < n
  | 0, _, _, _, _, hr => by cases hr
  | n + 1, node, t, pos, p, hr => by
    have hsub := script_agrees h g .sub g.builtIn.sub row pos
    have hsup := script_agrees h g .sup g.builtIn.sup row pos
    unfold parseScripts at hr
    obtain ⟨o, ho, hr⟩ := M.bind_eq_ok.1 hr
    cases o with
    | some r =>
      obtain ⟨s, p1⟩ := r
      obtain ⟨node', hn, hr⟩ := M.bind_eq_ok.1 hr
      obtain ⟨xs, h1, h2, h3⟩ := scripts_steps h g row n node' t p1 p hr
      obtain ⟨hy, hlt⟩ := hsub.1 s p1 ho
      refine ⟨(s, g.builtIn.sub) :: xs, .more (choice_yields _ hy) (by omega) h1 ?_, ?_,
        by simp; omega⟩
      · intro m
        rw [scriptsEffort, ho]
      · simp only [wrapScripts, hn, M.ok_bind, h2]
    | none =>
      have hf := hsub.2 ho
      obtain ⟨o, ho', hr⟩ := M.bind_eq_ok.1 hr
      cases o with
      | some r =>
        obtain ⟨s, p1⟩ := r
        obtain ⟨node', hn, hr⟩ := M.bind_eq_ok.1 hr
        obtain ⟨xs, h1, h2, h3⟩ := scripts_steps h g row n node' t p1 p hr
        obtain ⟨hy, hlt⟩ := hsup.1 s p1 ho'
        refine ⟨(s, g.builtIn.sup) :: xs,
          .more (choice_next hf (choice_yields _ hy) (fun _ => rfl)) (by omega) h1 ?_,
          ?_, by simp; omega⟩
        · intro m
          rw [scriptsEffort, ho]
          simp only [ho']
          omega
        · simp only [wrapScripts, hn, M.ok_bind, h2]
      | none =>
        cases hr
        refine ⟨[], .done (choice_fails hf (choice_fails (hsup.2 ho') choice_nil (fun _ => rfl)) ?_),
          rfl, by simp⟩
        intro m
        rw [scriptsEffort, ho]
        simp only [ho', free]

theorem rule_agrees (h : Counts c1 eff c2) (g : Grammar) (r : Rule) (row : Row) (pos : Nat) :
    Agrees (ruleParser c2 g r) row pos (ruleParse c1 g r row pos)
      (fun m => ruleEffort c1 eff m.isCheck g r row pos) := by
  unfold ruleParse ruleEffort
  cases hb : parseSpaces g row pos with
  | error => exact ⟨fun s p he => (by cases he), fun he => (by cases he)⟩
  | ok x =>
  obtain ⟨before, p1⟩ := x
  simp only [M.ok_bind]
  have ht := token_agrees h g r.parser row p1
  cases htk : tokenParse c1 g r.parser row p1 with
  | error => exact ⟨fun s p he => (by cases he), fun he => (by cases he)⟩
  | ok x =>
  cases x with
  | none =>
    refine ⟨fun s p he => (by cases he), fun _ => ?_⟩
    have hf : Fails (spacedParser c2 g r) row pos
        (fun m => tokenEffort eff m.isCheck r.parser row p1) :=
      mapWithSpan_fails _ (then_fails_left _ (then_fails_right (spaces_yields hb)
        (mapWithSpan_fails _ (ht.fails htk)) (fun m => by simp [free])))
    unfold ruleParser
    split
    · exact mapM_fails _ (then_fails_left _ hf)
    · exact hf
  | some x =>
    obtain ⟨c, p2⟩ := x
    simp only [M.ok_bind]
    cases hn : SNode.new (tokenName g r) p1 p2 c with
    | error => exact ⟨fun s p he => (by cases he), fun he => (by cases he)⟩
    | ok node =>
    cases ha : parseSpaces g row p2 with
    | error => exact ⟨fun s p he => (by cases he), fun he => (by cases he)⟩
    | ok x =>
    obtain ⟨after, p3⟩ := x
    simp only [M.ok_bind]
    cases hw : g.builtIn.whitespacesNode before node after pos p3 with
    | error => exact ⟨fun s p he => (by cases he), fun he => (by cases he)⟩
    | ok node' =>
    have hy : Yields (spacedParser c2 g r) row pos node' p3
        (fun m => tokenEffort eff m.isCheck r.parser row p1) :=
      mapWithSpan_yields (then_yields (then_yields (spaces_yields hb)
        (mapWithSpan_yields (ht.yields _ _ htk) hn) (fun _ => rfl)) (spaces_yields ha)
        (fun m => by simp [free])) hw
    simp only [M.ok_bind]
    unfold ruleParser
    split
    · refine ⟨fun t p he => ?_, fun he => ?_⟩
      · obtain ⟨⟨t', p'⟩, hs, he⟩ := M.bind_eq_ok.1 he
        cases he
        obtain ⟨xs, h1, h2, h3⟩ := scripts_steps h g row _ _ _ _ _ hs
        exact mapM_yields (then_yields hy (repeated_yields h1 (by omega)) (fun _ => rfl)) h2
      · obtain ⟨x, hs, he⟩ := M.bind_eq_ok.1 he
        cases he
    · refine ⟨fun t p he => ?_, fun he => (by cases he)⟩
      cases he
      exact hy

/-! ## The pratt parser -/

theorem parseSafe_yields {α : Type} {P : Parser α} {row : Row} {pos p : Nat} {a : α}
    {c : Mode → Nat} (h : Yields P row pos a p c) :
    Runs (parseSafe P row pos) (some a, p) (c .emit) := by
  refine ((h .emit).bind (d := 0) ?_).cost rfl
  exact runs_pure _

theorem parseSafe_fails {α : Type} {P : Parser α} {row : Row} {pos : Nat}
    {c : Mode → Nat} (h : Fails P row pos c) :
    Runs (parseSafe P row pos) (none, pos) (c .emit) := by
  obtain ⟨q, hq⟩ := h .emit
  refine (hq.bind (d := 0) ?_).cost rfl
  exact runs_pure _

theorem canParse_yields {α : Type} {P : Parser α} {row : Row} {pos p : Nat} {a : α}
    {c : Mode → Nat} (h : Yields P row pos a p c) :
    Runs (canParse P row pos) true (c .check) := by
  refine ((h .check).bind (d := 0) ?_).cost rfl
  exact runs_pure _

theorem canParse_fails {α : Type} {P : Parser α} {row : Row} {pos : Nat}
    {c : Mode → Nat} (h : Fails P row pos c) :
    Runs (canParse P row pos) false (c .check) := by
  obtain ⟨q, hq⟩ := h .check
  refine (hq.bind (d := 0) ?_).cost rfl
  exact runs_pure _

theorem parseIter_of (h : Counts c1 eff c2) (g : Grammar) (row : Row) (pos : Nat) :
    ∀ (rs : List Rule),
    (∀ t r p, Aftermath.parseIter c1 g row pos rs = .ok (some (t, r, p)) →
      Runs (parseIter c2 g row rs pos) (some (t, r), p) (iterEffort c1 eff false g row pos rs)) ∧
    (Aftermath.parseIter c1 g row pos rs = .ok none →
      Runs (parseIter c2 g row rs pos) (none, pos) (iterEffort c1 eff false g row pos rs))
  | [] => ⟨fun t r p he => (by cases he), fun _ => runs_pure _⟩
  | r :: rs => by
    have ih := parseIter_of h g row pos rs
    have hr := rule_agrees h g r row pos
    unfold Aftermath.parseIter iterEffort
    cases hp : ruleParse c1 g r row pos with
    | error => exact ⟨fun t r p he => (by cases he), fun he => (by cases he)⟩
    | ok x =>
      cases x with
      | none =>
        have hq := parseSafe_fails (hr.fails hp)
        simp only [M.ok_bind]
        exact ⟨fun t r p he => hq.bind (ih.1 t r p he), fun he => hq.bind (ih.2 he)⟩
      | some x =>
        obtain ⟨t, p⟩ := x
        refine ⟨fun t' r' p' he => ?_, fun he => (by cases he)⟩
        cases he
        exact (parseSafe_yields (hr.yields _ _ hp)).bind (runs_pure _)

theorem canParseIter_of (h : Counts c1 eff c2) (g : Grammar) (row : Row) (pos : Nat) :
    ∀ (rs : List Rule) (b : Bool), Aftermath.canParse c1 g row pos rs = .ok b →
      Runs (canParseIter c2 g row pos rs) b (canEffort c1 eff g row pos rs)
  | [], b, he => by cases he; exact runs_pure _
  | r :: rs, b, he => by
    have ih := canParseIter_of h g row pos rs b
    have hr := rule_agrees h g r row pos
    unfold Aftermath.canParse at ih he
    unfold canEffort at ih ⊢
    unfold Aftermath.parseIter at he
    unfold iterEffort
    cases hp : ruleParse c1 g r row pos with
    | error => rw [hp] at he; cases he
    | ok x =>
      rw [hp] at he
      cases x with
      | none => exact (canParse_fails (hr.fails hp)).bind (ih he)
      | some x =>
        obtain ⟨t, p⟩ := x
        cases he
        exact (canParse_yields (hr.yields _ _ hp)).bind (runs_pure _)

theorem choice_of (h : Counts c1 eff c2) (g : Grammar) (row : Row) (pos : Nat) :
    ∀ (rs : List Rule),
    (∀ t r p, Aftermath.parseIter c1 g row pos rs = .ok (some (t, r, p)) →
      Yields (choice (rs.map (ruleParser c2 g))) row pos t p
        (fun m => iterEffort c1 eff m.isCheck g row pos rs)) ∧
    (Aftermath.parseIter c1 g row pos rs = .ok none →
      Fails (choice (rs.map (ruleParser c2 g))) row pos
        (fun m => iterEffort c1 eff m.isCheck g row pos rs))
  | [] => ⟨fun t r p he => (by cases he), fun _ => choice_nil⟩
  | r :: rs => by
    have ih := choice_of h g row pos rs
    have hr := rule_agrees h g r row pos
    unfold Aftermath.parseIter iterEffort
    cases hp : ruleParse c1 g r row pos with
    | error => exact ⟨fun t r p he => (by cases he), fun he => (by cases he)⟩
    | ok x =>
      cases x with
      | none =>
        simp only [M.ok_bind, List.map_cons]
        exact ⟨fun t r p he => choice_next (hr.fails hp) (ih.1 t r p he) (fun _ => rfl),
          fun he => choice_fails (hr.fails hp) (ih.2 he) (fun _ => rfl)⟩
      | some x =>
        obtain ⟨t, p⟩ := x
        refine ⟨fun t' r' p' he => ?_, fun he => (by cases he)⟩
        cases he
        exact choice_yields _ (hr.yields _ _ hp)

theorem parseAtom_of (h : Counts c1 eff c2) (g : Grammar) (row : Row) (pos : Nat) :
    (∀ t r p, Aftermath.parseIter c1 g row pos g.atoms = .ok (some (t, r, p)) →
      Runs (parseSafe (atomParser c2 g) row pos) (some t, p)
        (iterEffort c1 eff false g row pos g.atoms)) ∧
    (Aftermath.parseIter c1 g row pos g.atoms = .ok none →
      Runs (parseSafe (atomParser c2 g) row pos) (none, pos)
        (iterEffort c1 eff false g row pos g.atoms)) := by
  have hc := choice_of h g row pos g.atoms
  exact ⟨fun t r p he => parseSafe_yields (hc.1 t r p he), fun he => parseSafe_fails (hc.2 he)⟩

theorem canParseAtom_of (h : Counts c1 eff c2) (g : Grammar) (row : Row) (pos : Nat) (b : Bool)
    (hb : Aftermath.canParse c1 g row pos g.atoms = .ok b) :
    Runs (canParse (atomParser c2 g) row pos) b (canEffort c1 eff g row pos g.atoms) := by
  have hc := choice_of h g row pos g.atoms
  unfold Aftermath.canParse at hb
  obtain ⟨o, ho, hb⟩ := M.bind_eq_ok.1 hb
  cases o with
  | none =>
    cases hb
    exact canParse_fails (hc.2 ho)
  | some x =>
    obtain ⟨t, r, p⟩ := x
    cases hb
    exact canParse_yields (hc.1 t r p ho)

theorem inputAtEnd_eq (row : Row) (pos : Nat) : inputAtEnd row pos = atInputEnd row pos := by
  unfold inputAtEnd next atInputEnd
  cases h : row[pos]? with
  | none => simpa using h
  | some n =>
    obtain ⟨hlt, -⟩ := List.getElem?_eq_some_iff.1 h
    simpa using hlt

theorem isAtEnd_runs (row : Row) (pos : Nat) (e : Ending) :
    Runs (isAtEnd row pos e) (Aftermath.isAtEnd row pos e) 0 := by
  unfold isAtEnd
  rw [inputAtEnd_eq]
  cases ha : atInputEnd row pos with
  | true => cases e <;> simp only [Aftermath.isAtEnd, ha, Bool.true_or] <;> exact runs_pure _
  | false =>
    simp only [Bool.false_eq_true, if_false]
    cases e with
    | eof =>
      simp only [Aftermath.isAtEnd, ha]
      cases hr : row[pos]? with
      | none =>
        have := List.getElem?_eq_none_iff.1 hr
        simp [atInputEnd] at ha
        omega
      | some n =>
        have : Fails ending row pos free := by
          intro m
          refine ⟨pos + 1, ?_⟩
          simp only [ending, next, hr]
          exact runs_pure _
        exact canParse_fails this
    | sym s =>
      simp only [Aftermath.isAtEnd, ha, Bool.false_or]
      cases hs : selectSym (fun t => t == s) row pos with
      | none => exact canParse_fails (map_fails (fun _ => ()) (justSymbol_fails hs))
      | some x =>
        obtain ⟨t, p⟩ := x
        exact canParse_yields (map_yields (fun _ => ()) (justSymbol_yields hs))

theorem orElse_true {a b : C Bool} {c : Nat} (ha : Runs a true c) : Runs (orElse a b) true c := by
  refine (ha.bind (d := 0) ?_).cost rfl
  exact runs_pure _

theorem orElse_false {a b : C Bool} {c d : Nat} {x : Bool} (ha : Runs a false c)
    (hb : Runs b x d) : Runs (orElse a b) x (c + d) :=
  ha.bind hb

theorem either_of (h : Counts c1 eff c2) (g : Grammar) (row : Row) (pos : Nat)
    (rs rs' : List Rule) (b : Bool) (hb : canParseEither c1 g row pos rs rs' = .ok b)
    {y : C Bool} (hy : ∀ b, Aftermath.canParse c1 g row pos rs' = .ok b →
      Runs y b (canEffort c1 eff g row pos rs')) :
    Runs (orElse (canParseIter c2 g row pos rs) y) b (eitherEffort c1 eff g row pos rs rs') := by
  unfold canParseEither at hb
  obtain ⟨b1, h1, hb⟩ := M.bind_eq_ok.1 hb
  unfold eitherEffort
  rw [h1]
  have hr := canParseIter_of h g row pos rs b1 h1
  cases b1 with
  | true => cases hb; exact orElse_true hr
  | false => exact orElse_false hr (hy b hb)

theorem unknownStops_of (h : Counts c1 eff c2) (g : Grammar) (row : Row) (pos : Nat) (e : Ending)
    (b : Bool) (hb : Aftermath.unknownStops c1 g row pos e = .ok b) :
    Runs (unknownStops c2 g row pos e) b (stopsEffort c1 eff g row pos e) := by
  unfold Aftermath.unknownStops at hb
  unfold unknownStops stopsEffort
  have he := isAtEnd_runs row pos e
  cases hat : Aftermath.isAtEnd row pos e with
  | true =>
    rw [hat] at he hb
    cases hb
    exact orElse_true he
  | false =>
    rw [hat] at he hb
    simp only [Bool.false_eq_true, if_false] at hb ⊢
    obtain ⟨b1, h1, hb⟩ := M.bind_eq_ok.1 hb
    refine (orElse_false he (d := canEffort c1 eff g row pos g.prefixes + _) ?_).cost
      (Nat.zero_add _).symm
    have hr := canParseIter_of h g row pos _ b1 h1
    rw [h1]
    cases b1 with
    | true => cases hb; exact orElse_true hr
    | false =>
      simp only [Bool.false_eq_true, if_false] at hb
      refine orElse_false hr ?_
      obtain ⟨b2, h2, hb⟩ := M.bind_eq_ok.1 hb
      have hr := canParseAtom_of h g row pos b2 h2
      rw [h2]
      cases b2 with
      | true => cases hb; exact orElse_true hr
      | false =>
        simp only [Bool.false_eq_true, if_false] at hb
        refine orElse_false hr ?_
        obtain ⟨b3, h3, hb⟩ := M.bind_eq_ok.1 hb
        have hr := canParseIter_of h g row pos _ b3 h3
        rw [h3]
        cases b3 with
        | true => cases hb; exact orElse_true hr
        | false => exact orElse_false hr (canParseIter_of h g row pos _ b hb)

theorem unknownAtom_of {g : Grammar} {row : Row} {pos : Nat} {t : SNode}
    (h : makeUnknownAtom g row pos = .ok t) : Runs (unknownAtom g row pos) (t, pos + 1) 0 := by
  unfold makeUnknownAtom at h
  obtain ⟨n, hn, h⟩ := M.bind_eq_ok.1 h
  cases hr : row[pos]? with
  | none => rw [hr] at hn; cases hn
  | some n' =>
    rw [hr] at hn
    cases hn
    simp only [unknownAtom, next, hr]
    exact (runs_lift h).bind0 (runs_pure _)

theorem unknownLoop_of (h : Counts c1 eff c2) (g : Grammar) (row : Row) (e : Ending) : ∀ (n : Nat)
    (atom : SNode) (pos : Nat) (r : SNode × Nat),
    Aftermath.unknownLoop c1 g row e n atom pos = .ok r →
    Runs (unknownLoop c2 g row e n atom pos) r (unknownLoopEffort c1 eff g row e n pos)
  | 0, _, _, _, hr => by cases hr
  | n + 1, atom, pos, r, hr => by
    unfold Aftermath.unknownLoop at hr
    unfold unknownLoop unknownLoopEffort
    obtain ⟨b, hb, hr⟩ := M.bind_eq_ok.1 hr
    refine (unknownStops_of h g row pos e b hb).bind ?_
    rw [hb]
    cases b with
    | true => cases hr; exact runs_pure _
    | false =>
      simp only [Bool.false_eq_true, if_false] at hr ⊢
      obtain ⟨a, ha, hr⟩ := M.bind_eq_ok.1 hr
      obtain ⟨j, hj, hr⟩ := M.bind_eq_ok.1 hr
      refine (unknownAtom_of ha).bind0 ?_
      refine (runs_lift hj).bind0 ?_
      exact unknownLoop_of h g row e n j (pos + 1) r hr

theorem parseUnknown_of (h : Counts c1 eff c2) (g : Grammar) (row : Row) (e : Ending) (pos : Nat)
    (r : SNode × Nat) (hr : Aftermath.parseUnknown c1 g row e pos = .ok r) :
    Runs (parseUnknown c2 g row e pos) r (unknownEffort c1 eff g row e pos) := by
  unfold Aftermath.parseUnknown at hr
  obtain ⟨a, ha, hr⟩ := M.bind_eq_ok.1 hr
  refine (unknownAtom_of ha).bind0 ?_
  exact unknownLoop_of h g row e _ _ _ r hr

theorem prattStart_of (h : Counts c1 eff c2) (g : Grammar) (row : Row) (e : Ending) (pos : Nat)
    (r : Start × Nat) (hr : Aftermath.prattStart c1 g row e pos = .ok r) :
    Runs (prattStart c2 g row e pos) r (startEffort c1 eff g row e pos) := by
  unfold Aftermath.prattStart at hr
  unfold prattStart startEffort
  rw [inputAtEnd_eq]
  split
  · rename_i hat
    rw [if_pos hat] at hr
    obtain ⟨t, ht, hr⟩ := M.bind_eq_ok.1 hr
    cases hr
    exact (runs_lift ht).bind0 (runs_pure _)
  rename_i hat
  rw [if_neg hat] at hr
  obtain ⟨o, ho, hr⟩ := M.bind_eq_ok.1 hr
  have hpre := parseIter_of h g row pos g.prefixes
  rw [ho]
  cases o with
  | some x =>
    obtain ⟨op, rule, p1⟩ := x
    refine (hpre.1 _ _ _ ho).bind ?_
    obtain ⟨⟨right, p2⟩, hc, hr⟩ := M.bind_eq_ok.1 hr
    obtain ⟨t, ht, hr⟩ := M.bind_eq_ok.1 hr
    refine ((h _ _ _ _ _ hc).bind (d := 0) ?_).cost rfl
    refine (runs_lift ht).bind0 ?_
    cases right with
    | expression => cases hr; exact runs_pure _
    | stop => cases hr; exact runs_pure _
  | none =>
    refine (hpre.2 ho).bind ?_
    obtain ⟨o, ho, hr⟩ := M.bind_eq_ok.1 hr
    have hatm := parseAtom_of h g row pos
    rw [ho]
    cases o with
    | some x =>
      obtain ⟨t, rule, p1⟩ := x
      cases hr
      exact (hatm.1 _ _ _ ho).bind (runs_pure _)
    | none =>
      refine (hatm.2 ho).bind ?_
      obtain ⟨b, hb, hr⟩ := M.bind_eq_ok.1 hr
      refine (either_of h g row pos _ _ b hb (fun b => canParseIter_of h g row pos _ b)).bind ?_
      rw [hb]
      cases b with
      | true =>
        obtain ⟨t, ht, hr⟩ := M.bind_eq_ok.1 hr
        cases hr
        exact (runs_lift ht).bind0 (runs_pure _)
      | false =>
        simp only [Bool.false_eq_true, if_false] at hr ⊢
        refine (isAtEnd_runs row pos e).bind0 ?_
        split
        · rename_i hae
          rw [if_pos hae] at hr
          obtain ⟨t, ht, hr⟩ := M.bind_eq_ok.1 hr
          cases hr
          exact (runs_lift ht).bind0 (runs_pure _)
        · rename_i hae
          rw [if_neg hae] at hr
          obtain ⟨⟨t, p1⟩, ht, hr⟩ := M.bind_eq_ok.1 hr
          cases hr
          refine ((parseUnknown_of h g row e pos _ ht).bind (d := 0) ?_).cost rfl
          exact runs_pure _

theorem prattLoop_of (h : Counts c1 eff c2) (g : Grammar) (row : Row) (min : Power) (e : Ending) :
    ∀ (n : Nat) (left : SNode) (pos : Nat) (r : PResult × Nat),
    Aftermath.prattLoop c1 g row min e n left pos = .ok r →
    Runs (prattLoop c2 g row min e n left pos) r (loopEffort c1 eff g row min e n pos)
  | 0, _, _, _, hr => by cases hr
  | n + 1, left, pos, r, hr => by
    unfold Aftermath.prattLoop at hr
    unfold prattLoop loopEffort
    rw [inputAtEnd_eq]
    simp only
    split
    · rename_i hat
      rw [if_pos hat] at hr
      cases hr
      exact runs_pure _
    rename_i hat
    rw [if_neg hat] at hr
    obtain ⟨o, ho, hr⟩ := M.bind_eq_ok.1 hr
    have hin := parseIter_of h g row pos g.infixes
    rw [ho]
    cases o with
    | some x =>
      obtain ⟨op, rule, p1⟩ := x
      refine (hin.1 _ _ _ ho).bind ?_
      dsimp only at hr ⊢
      split
      · rename_i hlt
        rw [if_pos hlt] at hr
        cases hr
        exact runs_pure _
      · rename_i hlt
        rw [if_neg hlt] at hr
        obtain ⟨⟨right, p2⟩, hc, hr⟩ := M.bind_eq_ok.1 hr
        obtain ⟨t, ht, hr⟩ := M.bind_eq_ok.1 hr
        refine (h _ _ _ _ _ hc).bind ?_
        refine (runs_lift ht).bind0 ?_
        rw [hc]
        cases right with
        | expression => exact prattLoop_of h g row min e n t p2 r hr
        | stop => cases hr; exact runs_pure _
    | none =>
      refine (hin.2 ho).bind ?_
      obtain ⟨o, ho, hr⟩ := M.bind_eq_ok.1 hr
      have hpo := parseIter_of h g row pos g.postfixes
      rw [ho]
      cases o with
      | some x =>
        obtain ⟨op, rule, p1⟩ := x
        refine (hpo.1 _ _ _ ho).bind ?_
        dsimp only at hr ⊢
        split
        · rename_i hlt
          rw [if_pos hlt] at hr
          cases hr
          exact runs_pure _
        · rename_i hlt
          rw [if_neg hlt] at hr
          obtain ⟨t, ht, hr⟩ := M.bind_eq_ok.1 hr
          refine (runs_lift ht).bind0 ?_
          exact prattLoop_of h g row min e n t p1 r hr
      | none =>
        refine (hpo.2 ho).bind ?_
        obtain ⟨b, hb, hr⟩ := M.bind_eq_ok.1 hr
        refine (either_of h g row pos _ _ b hb (fun b => canParseAtom_of h g row pos b)).bind ?_
        rw [hb]
        cases b with
        | true =>
          simp only [if_true] at hr ⊢
          split
          · rename_i hlt
            rw [if_pos hlt] at hr
            cases hr
            exact runs_pure _
          · rename_i hlt
            rw [if_neg hlt] at hr
            obtain ⟨⟨right, p2⟩, hc, hr⟩ := M.bind_eq_ok.1 hr
            obtain ⟨t, ht, hr⟩ := M.bind_eq_ok.1 hr
            refine (h _ _ _ _ _ hc).bind ?_
            refine (runs_lift ht).bind0 ?_
            rw [hc]
            cases right with
            | expression => exact prattLoop_of h g row min e n t p2 r hr
            | stop => cases hr; exact runs_pure _
        | false =>
          simp only [Bool.false_eq_true, if_false] at hr ⊢
          refine (isAtEnd_runs row pos e).bind0 ?_
          split
          · rename_i hae
            rw [if_pos hae] at hr
            cases hr
            exact runs_pure _
          · rename_i hae
            rw [if_neg hae] at hr
            obtain ⟨⟨right, p2⟩, hu, hr⟩ := M.bind_eq_ok.1 hr
            obtain ⟨t, ht, hr⟩ := M.bind_eq_ok.1 hr
            refine (parseUnknown_of h g row e pos _ hu).bind ?_
            refine (runs_lift ht).bind0 ?_
            rw [hu]
            exact prattLoop_of h g row min e n t p2 r hr

theorem prattBody_of (h : Counts c1 eff c2) (g : Grammar) :
    Counts (Aftermath.prattBody c1 g)
      (fun row pos min e => 1 + bodyEffort c1 eff g row pos min e) (prattBody c2 g) := by
  intro row pos min e r hr
  unfold Aftermath.prattBody at hr
  obtain ⟨⟨s, p⟩, hs, hr⟩ := M.bind_eq_ok.1 hr
  unfold prattBody bodyEffort
  refine runs_tick.bind ?_
  refine (prattStart_of h g row e pos _ hs).bind ?_
  rw [hs]
  cases s with
  | finished => cases hr; exact runs_pure _
  | left t => exact prattLoop_of h g row min e _ t p r hr

end

theorem pratt_of (g : Grammar) : ∀ f : Nat, Counts (Aftermath.pratt g f) (prattEffort g f) (pratt g f)
  | 0 => fun _ _ _ _ _ h => by cases h
  | f + 1 => prattBody_of (pratt_of g f) g

theorem parse_of (g : Grammar) (f : Nat) {row : Row} {t : SNode}
    (h : g.parseFuel f row = .ok t) : parse g f row = .ok (t, g.effort f row) := by
  have := parseRow_of (pratt_of g f) h 0
  rw [Nat.zero_add] at this
  exact this

end Aftermath.Chumsky
