import Verif.Spec.Rename
import Verif.Proof.Basic

/-! # The parser commutes with replacing characters -/

namespace Aftermath

variable {φ : Char → Char}

/-! ## Lists -/

theorem renameRow_map (r : Row) : renameRow φ r = r.map (Node.rename φ) := by
  induction r with
  | nil => rfl
  | cons n ns ih => rw [renameRow, ih]; rfl

theorem renameCells_map (r : List Row) : renameCells φ r = r.map (renameRow φ) := by
  induction r with
  | nil => rfl
  | cons n ns ih => rw [renameCells, ih]; rfl

theorem SNode.renameAll_map (r : List SNode) : SNode.renameAll φ r = r.map (SNode.rename φ) := by
  induction r with
  | nil => rfl
  | cons n ns ih => rw [SNode.renameAll, ih]; rfl

theorem renameRow_length (r : Row) : (renameRow φ r).length = r.length := by
  rw [renameRow_map, List.length_map]

theorem renameRow_get (r : Row) (i : Nat) : (renameRow φ r)[i]? = r[i]?.map (Node.rename φ) := by
  rw [renameRow_map, List.getElem?_map]

theorem renameRow_drop (r : Row) (i : Nat) : (renameRow φ r).drop i = renameRow φ (r.drop i) := by
  rw [renameRow_map, renameRow_map, List.map_drop]

/-- the children of a node -/
def SChildren.rename (φ : Char → Char) : SChildren → SChildren
  | .newRows cells w => .newRows (SNode.renameAll φ cells) w
  | .children cs => .children (SNode.renameAll φ cs)
  | .leaf ty ss => .leaf ty (ss.map fun s => s.map φ)

/-- the result of a pratt parser -/
def PResult.rename (φ : Char → Char) : PResult → PResult
  | .expression t => .expression (t.rename φ)
  | .stop t => .stop (t.rename φ)

@[simp] theorem SNode.rename_lo (t : SNode) : (t.rename φ).lo = t.lo := by
  cases t <;> simp [SNode.rename, SNode.lo]
@[simp] theorem SNode.rename_hi (t : SNode) : (t.rename φ).hi = t.hi := by
  cases t <;> simp [SNode.rename, SNode.hi]
@[simp] theorem SNode.rename_range (t : SNode) : (t.rename φ).range = t.range := by
  simp [SNode.range]
@[simp] theorem PResult.rename_node (r : PResult) : (r.rename φ).node = r.node.rename φ := by
  cases r <;> rfl

/-! ## Same computations on renamed data -/

/-- `y` is `x` with the result replaced. -/
def MRen {α β : Type} (k : α → β) (x : M α) (y : M β) : Prop :=
  match x with
  | .ok a => y = .ok (k a)
  | .error e => y = .error e

theorem MRen.ok {α β : Type} {k : α → β} {a : α} {b : β} (h : b = k a) :
    MRen k (.ok a) (.ok b) := by rw [h]; rfl

theorem MRen.error {α β : Type} {k : α → β} (e : Panic) : MRen k (.error e) (.error e) := rfl

theorem MRen.bind {α β γ δ : Type} {k : α → β} {k' : γ → δ} {x : M α} {y : M β} {f : α → M γ}
    {f' : β → M δ} (h : MRen k x y) (hf : ∀ a, MRen k' (f a) (f' (k a))) :
    MRen k' (x >>= f) (y >>= f') := by
  cases x with
  | error e => rw [MRen] at h; subst h; rfl
  | ok a => rw [MRen] at h; subst h; exact hf a

theorem MRen.same {α β γ : Type} {k' : β → γ} {x : M α} {f : α → M β}
    {f' : α → M γ} (hf : ∀ a, MRen k' (f a) (f' a)) : MRen k' (x >>= f) (x >>= f') := by
  cases x with
  | error e => rfl
  | ok a => exact hf a

theorem MRen.ite {α β : Type} {k : α → β} {p : Prop} [Decidable p] {x x' : M α} {y y' : M β}
    (h : MRen k x y) (h' : MRen k x' y') :
    MRen k (if p then x else x') (if p then y else y') := by
  split
  · exact h
  · exact h'

theorem contiguousFrom_rename (cs : List SNode) : ∀ stop,
    SNode.contiguousFrom stop (SNode.renameAll φ cs) = SNode.contiguousFrom stop cs := by
  induction cs with
  | nil => intro stop; rfl
  | cons c cs ih =>
    intro stop
    simp only [SNode.renameAll, SNode.contiguousFrom, SNode.rename_lo, SNode.rename_hi, ih]

theorem combinedRange_rename (c : SChildren) :
    SNode.combinedRange (c.rename φ) = SNode.combinedRange c := by
  cases c with
  | newRows _ _ => rfl
  | leaf _ _ => rfl
  | children cs =>
    cases cs with
    | nil => rfl
    | cons c cs =>
      simp only [SChildren.rename, SNode.renameAll, SNode.combinedRange, SNode.rename_lo,
        SNode.rename_hi, contiguousFrom_rename]

theorem new_rename (n lo hi : Nat) (c : SChildren) :
    MRen (SNode.rename φ) (SNode.new n lo hi c) (SNode.new n lo hi (c.rename φ)) := by
  unfold SNode.new
  rw [combinedRange_rename]
  refine MRen.same fun a => ?_
  have : SNode.make n lo hi (c.rename φ) = (SNode.make n lo hi c).rename φ := by
    cases c <;> simp [SNode.make, SChildren.rename, SNode.rename]
  rw [this]
  cases a with
  | none => exact MRen.ok rfl
  | some p => exact MRen.same fun _ => MRen.ok rfl

/-- as `new_rename`, for children that are the renamed ones -/
theorem new_rename' {n lo hi : Nat} {c c' : SChildren} (h : c' = c.rename φ) :
    MRen (SNode.rename φ) (SNode.new n lo hi c) (SNode.new n lo hi c') := h ▸ new_rename n lo hi c

/-! ## Token parsers -/

/-- the rules that are tried -/
def Grammar.used (g : Grammar) : List Rule := g.prefixes ++ g.atoms ++ g.infixes ++ g.postfixes

/-- What the grammar asks for is not changed by the renaming. -/
structure Keeps (g : Grammar) (φ : Char → Char) : Prop where
  start : ∀ c, g.xidStart (φ c) = g.xidStart c
  continue_ : ∀ c, g.xidContinue (φ c) = g.xidContinue c
  digit : ∀ c, ('0' ≤ φ c ∧ φ c ≤ '9') ↔ ('0' ≤ c ∧ c ≤ '9')
  special : ∀ d, d = ' ' ∨ d = '.' ∨ d = '"' ∨ d = '\\' → ∀ c, φ c = d ↔ c = d
  symbols : ∀ r ∈ g.used, ∀ ss ty, r.parser = .symbols ss ty → ∀ s ∈ ss, ∀ d ∈ s, ∀ c, φ c = d ↔ c = d
  brackets : ∀ r ∈ g.used, ∀ n o c, r.parser = .brackets n o c → ∀ d ∈ o ++ c, ∀ c', φ c' = d ↔ c' = d
  empty : ∀ r ∈ g.used, ∀ n o c, r.parser = .emptyBrackets n o c →
    ∀ d ∈ o ++ c, ∀ c', φ c' = d ↔ c' = d

/-- the characters of `t` stay and no other character becomes one of them -/
def Fixes (φ : Char → Char) (t : Str) : Prop := ∀ d ∈ t, ∀ c, φ c = d ↔ c = d

theorem Fixes.iff {t : Str} (h : Fixes φ t) : ∀ s : Str, s.map φ = t ↔ s = t := by
  induction t with
  | nil => intro s; simp
  | cons d t ih =>
    intro s
    cases s with
    | nil => simp
    | cons c s =>
      simp only [List.map_cons, List.cons.injEq]
      rw [h d (by simp), ih (fun d hd => h d (by simp [hd]))]

theorem Fixes.eq {t : Str} (h : Fixes φ t) : t.map φ = t := (h.iff t).2 rfl

theorem Fixes.beq {t : Str} (h : Fixes φ t) (s : Str) : (s.map φ == t) = (s == t) := by
  by_cases hs : s = t
  · rw [hs, h.eq]
  · rw [beq_eq_false_iff_ne.2 hs, beq_eq_false_iff_ne.2 fun h' => hs ((h.iff s).1 h')]

/-- a symbol and a position -/
abbrev ren1 (φ : Char → Char) (r : Str × Nat) : Str × Nat := (r.1.map φ, r.2)
/-- symbols and a position -/
abbrev ren2 (φ : Char → Char) (r : List Str × Nat) : List Str × Nat := (r.1.map fun s => s.map φ, r.2)
/-- children and a position -/
abbrev ren3 (φ : Char → Char) (r : SChildren × Nat) : SChildren × Nat := (r.1.rename φ, r.2)
/-- a node and a position -/
abbrev ren4 (φ : Char → Char) (r : SNode × Nat) : SNode × Nat := (r.1.rename φ, r.2)
/-- a result and a position -/
abbrev ren5 (φ : Char → Char) (r : PResult × Nat) : PResult × Nat := (r.1.rename φ, r.2)

theorem selectSym_rename {f : Str → Bool} (hf : ∀ s, f (s.map φ) = f s) (row : Row) (pos : Nat) :
    selectSym f (renameRow φ row) pos = (selectSym f row pos).map (ren1 φ) := by
  unfold selectSym
  rw [renameRow_get]
  cases row[pos]? with
  | none => rfl
  | some n =>
    cases n with
    | container _ _ _ => simp [Node.rename]
    | symbol s =>
      simp only [Option.map_some, Node.rename, hf]
      split <;> rfl

theorem selectSym_fixed {t : Str} (h : Fixes φ t) (row : Row) (pos : Nat) :
    selectSym (fun s => s == t) (renameRow φ row) pos =
      (selectSym (fun s => s == t) row pos).map (ren1 φ) := selectSym_rename h.beq row pos

theorem symRun_rename {f : Str → Bool} (hf : ∀ s, f (s.map φ) = f s) (row : Row) :
    symRun f (renameRow φ row) = (symRun f row).map fun s => s.map φ := by
  induction row with
  | nil => rfl
  | cons n row ih =>
    cases n with
    | container _ _ _ => simp [renameRow, Node.rename, symRun]
    | symbol s =>
      simp only [renameRow, Node.rename, symRun, hf, ih]
      split <;> rfl

theorem symRun_fixed {t : Str} (h : Fixes φ t) (row : Row) :
    symRun (fun s => s == t) (renameRow φ row) = (symRun (fun s => s == t) row).map fun s => s.map φ :=
  symRun_rename h.beq row

theorem prefix_rename {ss : List Str} (h : ∀ s ∈ ss, Fixes φ s) (row : Row) :
    (ss.map Node.symbol).isPrefixOf (renameRow φ row) = (ss.map Node.symbol).isPrefixOf row := by
  induction ss generalizing row with
  | nil => rfl
  | cons s ss ih =>
    cases row with
    | nil => rfl
    | cons n row =>
      simp only [List.map_cons, renameRow, List.isPrefixOf_cons_cons]
      rw [ih (fun s hs => h s (by simp [hs]))]
      congr 1
      cases n with
      | container _ _ _ =>
        rw [Bool.eq_iff_iff, beq_iff_eq, beq_iff_eq]
        simp [Node.rename]
      | symbol t =>
        rw [Node.rename, Bool.eq_iff_iff, beq_iff_eq, beq_iff_eq, Node.symbol.injEq, Node.symbol.injEq,
          eq_comm, (h s (by simp)).iff, eq_comm]

theorem justSymbols_rename {ss : List Str} (h : ∀ s ∈ ss, Fixes φ s) (row : Row) (pos : Nat) :
    justSymbols ss (renameRow φ row) pos = justSymbols ss row pos := by
  unfold justSymbols
  rw [renameRow_drop, prefix_rename h]

theorem Fixes.flatten {ss : List Str} (h : ∀ s ∈ ss, Fixes φ s) : Fixes φ ss.flatten := by
  intro d hd c
  obtain ⟨s, hs, hd⟩ := List.mem_flatten.1 hd
  exact h s hs d hd c

variable {g : Grammar}

theorem identStart_rename (h : Keeps g φ) (s : Str) :
    isIdentifierStart g (s.map φ) = isIdentifierStart g s := by
  cases s with
  | nil => rfl
  | cons c cs =>
    simp only [List.map_cons, isIdentifierStart, h.start, List.all_map]
    congr 2
    funext c
    exact h.continue_ c

theorem identContinue_rename (h : Keeps g φ) (s : Str) :
    isIdentifierContinue g (s.map φ) = isIdentifierContinue g s := by
  simp only [isIdentifierContinue, List.all_map]
  congr 1
  funext c
  exact h.continue_ c

theorem isDigits_rename (h : Keeps g φ) (s : Str) : isDigits (s.map φ) = isDigits s := by
  simp only [isDigits, List.all_map]
  congr 1
  funext c
  have := h.digit c
  simp only [Function.comp]
  rw [Bool.eq_iff_iff, Bool.and_eq_true, Bool.and_eq_true, decide_eq_true_eq, decide_eq_true_eq,
    decide_eq_true_eq, decide_eq_true_eq]
  exact this

theorem Keeps.one (h : Keeps g φ) {d : Char} (hd : d = ' ' ∨ d = '.' ∨ d = '"' ∨ d = '\\') :
    Fixes φ [d] := by
  intro e he
  rw [List.mem_singleton] at he
  subst he
  exact h.special e hd

theorem parseVariable_rename (h : Keeps g φ) (row : Row) (pos : Nat) :
    parseVariable g (renameRow φ row) pos = (parseVariable g row pos).map (ren3 φ) := by
  unfold parseVariable
  rw [selectSym_rename (identStart_rename h)]
  cases selectSym (isIdentifierStart g) row pos with
  | none => rfl
  | some r =>
    simp only [Option.map_some, Option.bind_eq_bind, Option.bind_some, renameRow_drop,
      symRun_rename (identContinue_rename h), List.length_map]
    rfl

theorem numberDigits_rename (h : Keeps g φ) (row : Row) (pos : Nat) :
    numberDigits (renameRow φ row) pos = (numberDigits row pos).map (ren2 φ) := by
  unfold numberDigits
  simp only [renameRow_drop, symRun_rename (isDigits_rename h), List.isEmpty_map, List.length_map]
  split <;> rfl

theorem parseFractional_rename (h : Keeps g φ) (row : Row) (pos : Nat) :
    parseFractional (renameRow φ row) pos = (parseFractional row pos).map (ren2 φ) := by
  unfold parseFractional
  rw [selectSym_fixed (h.one (by simp))]
  cases selectSym (fun s => s == ['.']) row pos with
  | none => rfl
  | some r =>
    simp only [Option.map_some, Option.bind_eq_bind, Option.bind_some, numberDigits_rename h]
    cases numberDigits row r.2 with
    | none => rfl
    | some q => rfl

theorem parseNumber_rename (h : Keeps g φ) (row : Row) (pos : Nat) :
    parseNumber (renameRow φ row) pos = (parseNumber row pos).map (ren3 φ) := by
  unfold parseNumber
  rw [numberDigits_rename h]
  cases numberDigits row pos with
  | none => rfl
  | some r =>
    simp only [Option.map_some, Option.bind_eq_bind, Option.bind_some, parseFractional_rename h]
    cases parseFractional row r.2 with
    | none => rfl
    | some q => simp [SChildren.rename]

theorem stringBody_rename (h : Keeps g φ) : ∀ (k : Nat) (row : Row), row.length ≤ k →
    stringBody (renameRow φ row) = (stringBody row).map fun s => s.map φ := by
  intro k
  induction k with
  | zero =>
    intro row hk
    rw [List.length_eq_zero_iff.1 (Nat.le_zero.1 hk)]
    simp [renameRow, stringBody]
  | succ k ih =>
    intro row hk
    cases row with
    | nil => simp [renameRow, stringBody]
    | cons n row =>
      simp only [List.length_cons] at hk
      cases n with
      | container _ _ _ => simp [renameRow, Node.rename, stringBody]
      | symbol s =>
        simp only [renameRow, Node.rename]
        rw [stringBody.eq_def, stringBody.eq_def (.symbol s :: row)]
        simp only [(h.one (d := '\\') (by simp)).beq, (h.one (d := '"') (by simp)).beq]
        split
        · cases row with
          | nil => rfl
          | cons m row =>
            cases m with
            | container _ _ _ => simp [renameRow, Node.rename]
            | symbol t =>
              simp only [renameRow, Node.rename, List.length_cons] at hk ⊢
              rw [ih row (by omega)]
              rfl
        · split
          · rfl
          · rw [ih row (by omega)]
            rfl

theorem parseString_rename (h : Keeps g φ) (row : Row) (pos : Nat) :
    parseString (renameRow φ row) pos = (parseString row pos).map (ren3 φ) := by
  unfold parseString
  rw [selectSym_fixed (h.one (by simp))]
  cases selectSym (fun s => s == ['"']) row pos with
  | none => rfl
  | some r =>
    simp only [Option.map_some, Option.bind_eq_bind, Option.bind_some, renameRow_drop,
      stringBody_rename h _ _ (Nat.le_refl _), List.length_map,
      selectSym_fixed (h.one (d := '"') (by simp))]
    cases selectSym (fun s => s == ['"']) row (r.2 + (stringBody (List.drop r.2 row)).length) with
    | none => rfl
    | some q => simp [SChildren.rename]

/-! ## Parsers that call others -/

/-- The call gives renamed results for renamed rows. -/
def Rec.Ren (φ : Char → Char) (call : Rec) : Prop :=
  ∀ row pos min e, (∀ s, e = .sym s → Fixes φ s) →
    MRen (ren5 φ) (call row pos min e) (call (renameRow φ row) pos min e)

variable {call : Rec}

theorem parseWhole_rename (hc : call.Ren φ) (row : Row) :
    MRen (SNode.rename φ) (parseWhole call row) (parseWhole call (renameRow φ row)) := by
  unfold parseWhole
  rw [renameRow_length]
  refine MRen.bind (hc row 0 _ .eof (by simp)) fun a => ?_
  exact MRen.ite (MRen.ok (by simp)) (MRen.error _)

theorem parseCells_rename (hc : call.Ren φ) (cells : List Row) :
    MRen (SNode.renameAll φ) (parseCells call cells) (parseCells call (renameCells φ cells)) := by
  induction cells with
  | nil => exact MRen.ok rfl
  | cons r rs ih =>
    unfold renameCells parseCells
    refine MRen.bind (parseWhole_rename hc r) fun a => ?_
    exact MRen.bind ih fun b => MRen.ok rfl

theorem fromOneDimensional_rename (ts : List SNode) (w : Nat) :
    MRen (fun gr : GridVec SNode => (⟨SNode.renameAll φ gr.values, gr.width⟩ : GridVec SNode))
      (GridVec.fromOneDimensional ts w) (GridVec.fromOneDimensional (SNode.renameAll φ ts) w) := by
  unfold GridVec.fromOneDimensional
  rw [SNode.renameAll_map, List.length_map]
  refine MRen.ite (MRen.error _) (MRen.ite (MRen.ok ?_) (MRen.error _))
  rw [SNode.renameAll_map]

theorem parseContainer_rename (hc : call.Ren φ) (v : Variant) (row : Row) (pos : Nat) :
    MRen (Option.map (ren3 φ)) (parseContainer call v row pos)
      (parseContainer call v (renameRow φ row) pos) := by
  unfold parseContainer
  rw [renameRow_get]
  cases row[pos]? with
  | none => exact MRen.ok rfl
  | some n =>
    cases n with
    | symbol s =>
      simp only [Option.map_some, Node.rename]
      exact MRen.ok rfl
    | container v' cells w =>
      simp only [Option.map_some, Node.rename]
      refine MRen.ite ?_ (MRen.ok rfl)
      refine MRen.bind (parseCells_rename hc cells) fun ts => ?_
      exact MRen.bind (fromOneDimensional_rename ts w) fun gr => MRen.ok rfl

theorem parseBrackets_rename (hc : call.Ren φ) (n : Nat) {o c : Str} (ho : Fixes φ o) (hcl : Fixes φ c)
    (row : Row) (pos : Nat) :
    MRen (Option.map (ren3 φ)) (parseBrackets call n o c row pos)
      (parseBrackets call n o c (renameRow φ row) pos) := by
  unfold parseBrackets
  rw [selectSym_fixed ho]
  cases selectSym (fun s => s == o) row pos with
  | none => exact MRen.ok rfl
  | some r =>
    simp only [Option.map_some]
    refine MRen.bind (hc row r.2 (0, .weak) (.sym c) (by rintro s ⟨⟩; exact hcl)) fun a => ?_
    simp only [selectSym_fixed hcl]
    cases selectSym (fun s => s == c) row a.2 with
    | none => exact MRen.ok rfl
    | some q =>
      simp only [Option.map_some]
      refine MRen.bind (new_rename' rfl) fun l => ?_
      refine MRen.bind (new_rename' rfl) fun r => ?_
      refine MRen.ok ?_
      simp [SChildren.rename, SNode.renameAll]

theorem parseEmptyBrackets_rename (n : Nat) {o c : Str} (ho : Fixes φ o) (hcl : Fixes φ c)
    (row : Row) (pos : Nat) :
    MRen (Option.map (ren3 φ)) (parseEmptyBrackets n o c row pos)
      (parseEmptyBrackets n o c (renameRow φ row) pos) := by
  unfold parseEmptyBrackets
  rw [selectSym_fixed ho]
  cases selectSym (fun s => s == o) row pos with
  | none => exact MRen.ok rfl
  | some r =>
    simp only [Option.map_some, selectSym_fixed hcl]
    cases selectSym (fun s => s == c) row r.2 with
    | none => exact MRen.ok rfl
    | some q =>
      simp only [Option.map_some]
      refine MRen.bind (new_rename' rfl) fun l => ?_
      refine MRen.bind (new_rename' rfl) fun r => ?_
      refine MRen.ok ?_
      simp [SChildren.rename, SNode.renameAll]

theorem tokenParse_rename (h : Keeps g φ) (hc : call.Ren φ) {r : Rule} (hr : r ∈ g.used) (row : Row)
    (pos : Nat) :
    MRen (Option.map (ren3 φ)) (tokenParse call g r.parser row pos)
      (tokenParse call g r.parser (renameRow φ row) pos) := by
  unfold tokenParse
  cases hp : r.parser with
  | symbols ss ty =>
    have hss : ∀ s ∈ ss, Fixes φ s := h.symbols r hr ss ty hp
    refine MRen.ok ?_
    rw [justSymbols_rename hss]
    unfold justSymbols
    split
    · simp [SChildren.rename, (Fixes.flatten hss).eq]
    · rfl
  | brackets n o c =>
    have hb := h.brackets r hr n o c hp
    exact parseBrackets_rename hc n (fun d hd => hb d (by simp [hd])) (fun d hd => hb d (by simp [hd]))
      row pos
  | emptyBrackets n o c =>
    have hb := h.empty r hr n o c hp
    exact parseEmptyBrackets_rename n (fun d hd => hb d (by simp [hd])) (fun d hd => hb d (by simp [hd]))
      row pos
  | container v => exact parseContainer_rename hc v row pos
  | «variable» => exact MRen.ok (parseVariable_rename h row pos)
  | number => exact MRen.ok (parseNumber_rename h row pos)
  | string => exact MRen.ok (parseString_rename h row pos)

/-! ## Rules -/

/-- perhaps a node, and a position -/
abbrev ren6 (φ : Char → Char) (r : Option SNode × Nat) : Option SNode × Nat :=
  (r.1.map (SNode.rename φ), r.2)
/-- a node, a rule and a position -/
abbrev ren7 (φ : Char → Char) (r : SNode × Rule × Nat) : SNode × Rule × Nat :=
  (r.1.rename φ, r.2)

theorem parseSpaces_rename (h : Keeps g φ) (row : Row) (pos : Nat) :
    MRen (ren6 φ) (parseSpaces g row pos) (parseSpaces g (renameRow φ row) pos) := by
  unfold parseSpaces
  simp only [renameRow_drop, symRun_fixed (h.one (d := ' ') (by simp)), List.isEmpty_map,
    List.length_map]
  refine MRen.ite (MRen.ok rfl) ?_
  exact MRen.bind (new_rename' rfl) fun a => MRen.ok rfl

theorem whitespacesNode_rename (b : BuiltIn) (before after : Option SNode) (node : SNode) (lo hi : Nat) :
    MRen (SNode.rename φ) (b.whitespacesNode before node after lo hi)
      (b.whitespacesNode (before.map (SNode.rename φ)) (node.rename φ) (after.map (SNode.rename φ)) lo
        hi) := by
  unfold BuiltIn.whitespacesNode
  cases before <;> cases after <;> simp only [Option.map_none, Option.map_some]
  · exact MRen.ok rfl
  all_goals
    refine new_rename' ?_
    simp [SChildren.rename, SNode.renameAll]

theorem parseScript_rename (h : Keeps g φ) (hc : call.Ren φ) (v : Variant) (row : Row) (pos : Nat) :
    MRen (Option.map (ren4 φ)) (parseScript call g v row pos)
      (parseScript call g v (renameRow φ row) pos) := by
  unfold parseScript
  refine MRen.bind (parseContainer_rename hc v row pos) fun a => ?_
  cases a with
  | none => exact MRen.ok rfl
  | some c =>
    simp only [Option.map_some]
    refine MRen.bind (new_rename _ _ _ _) fun node => ?_
    refine MRen.bind (parseSpaces_rename h row c.2) fun sp => ?_
    exact MRen.bind (whitespacesNode_rename g.builtIn none sp.1 node pos sp.2) fun n => MRen.ok rfl

theorem buildPostfix_rename (n : Nat) (op left : SNode) :
    MRen (SNode.rename φ) (buildPostfix n op left) (buildPostfix n (op.rename φ) (left.rename φ)) := by
  unfold buildPostfix
  simp only [SNode.rename_range]
  exact new_rename' (by simp [SChildren.rename, SNode.renameAll])

theorem buildPrefix_rename (n : Nat) (op right : SNode) :
    MRen (SNode.rename φ) (buildPrefix n op right) (buildPrefix n (op.rename φ) (right.rename φ)) := by
  unfold buildPrefix
  simp only [SNode.rename_range]
  exact new_rename' (by simp [SChildren.rename, SNode.renameAll])

theorem buildInfix_rename (n : Nat) (op left right : SNode) :
    MRen (SNode.rename φ) (buildInfix n op left right)
      (buildInfix n (op.rename φ) (left.rename φ) (right.rename φ)) := by
  unfold buildInfix
  simp only [SNode.rename_range]
  exact new_rename' (by simp [SChildren.rename, SNode.renameAll])

theorem parseScripts_rename (h : Keeps g φ) (hc : call.Ren φ) (row : Row) (n : Nat) :
    ∀ (node : SNode) (pos : Nat), MRen (ren4 φ) (parseScripts call g row n node pos)
      (parseScripts call g (renameRow φ row) n (node.rename φ) pos) := by
  induction n with
  | zero => intro node pos; exact MRen.error _
  | succ n ih =>
    intro node pos
    unfold parseScripts
    refine MRen.bind (parseScript_rename h hc .sub row pos) fun a => ?_
    cases a with
    | some s => exact MRen.bind (buildPostfix_rename _ _ _) fun t => ih t s.2
    | none =>
      refine MRen.bind (parseScript_rename h hc .sup row pos) fun a => ?_
      cases a with
      | some s => exact MRen.bind (buildPostfix_rename _ _ _) fun t => ih t s.2
      | none => exact MRen.ok rfl

theorem ruleParse_rename (h : Keeps g φ) (hc : call.Ren φ) {r : Rule} (hr : r ∈ g.used) (row : Row)
    (pos : Nat) :
    MRen (Option.map (ren4 φ)) (ruleParse call g r row pos)
      (ruleParse call g r (renameRow φ row) pos) := by
  unfold ruleParse
  refine MRen.bind (parseSpaces_rename h row pos) fun sp => ?_
  refine MRen.bind (tokenParse_rename h hc hr row sp.2) fun a => ?_
  cases a with
  | none => exact MRen.ok rfl
  | some c =>
    simp only [Option.map_some]
    refine MRen.bind (new_rename _ _ _ _) fun node => ?_
    refine MRen.bind (parseSpaces_rename h row c.2) fun sp' => ?_
    refine MRen.bind (whitespacesNode_rename g.builtIn sp.1 sp'.1 node pos sp'.2) fun n => ?_
    refine MRen.ite ?_ (MRen.ok rfl)
    rw [renameRow_length]
    exact MRen.bind (parseScripts_rename h hc row _ n sp'.2) fun res => MRen.ok rfl

theorem parseIter_rename (h : Keeps g φ) (hc : call.Ren φ) (row : Row) (pos : Nat) (rs : List Rule)
    (hr : ∀ r ∈ rs, r ∈ g.used) :
    MRen (Option.map (ren7 φ)) (parseIter call g row pos rs)
      (parseIter call g (renameRow φ row) pos rs) := by
  induction rs with
  | nil => exact MRen.ok rfl
  | cons r rs ih =>
    unfold parseIter
    refine MRen.bind (ruleParse_rename h hc (hr r (by simp)) row pos) fun a => ?_
    cases a with
    | some s => exact MRen.ok rfl
    | none => exact ih fun r hr' => hr r (by simp [hr'])

theorem canParse_rename (h : Keeps g φ) (hc : call.Ren φ) (row : Row) (pos : Nat) (rs : List Rule)
    (hr : ∀ r ∈ rs, r ∈ g.used) :
    MRen id (canParse call g row pos rs) (canParse call g (renameRow φ row) pos rs) := by
  unfold canParse
  refine MRen.bind (parseIter_rename h hc row pos rs hr) fun a => ?_
  cases a <;> exact MRen.ok rfl

theorem canParseEither_rename (h : Keeps g φ) (hc : call.Ren φ) (row : Row) (pos : Nat)
    (rs rs' : List Rule) (hr : ∀ r ∈ rs, r ∈ g.used) (hr' : ∀ r ∈ rs', r ∈ g.used) :
    MRen id (canParseEither call g row pos rs rs')
      (canParseEither call g (renameRow φ row) pos rs rs') := by
  unfold canParseEither
  refine MRen.bind (canParse_rename h hc row pos rs hr) fun a => ?_
  exact MRen.ite (MRen.ok rfl) (canParse_rename h hc row pos rs' hr')

/-! ## The pratt parser -/

theorem atInputEnd_rename (row : Row) (pos : Nat) :
    atInputEnd (renameRow φ row) pos = atInputEnd row pos := by
  unfold atInputEnd
  rw [renameRow_length]

/-- an ending parser that asks for characters that stay -/
def Ending.Fixed (φ : Char → Char) (e : Ending) : Prop := ∀ s, e = .sym s → Fixes φ s

theorem isAtEnd_rename {e : Ending} (he : e.Fixed φ) (row : Row) (pos : Nat) :
    isAtEnd (renameRow φ row) pos e = isAtEnd row pos e := by
  cases e with
  | eof => exact atInputEnd_rename row pos
  | sym s =>
    simp only [isAtEnd]
    rw [atInputEnd_rename, selectSym_fixed (he s rfl), Option.isSome_map]

theorem used_prefixes {r : Rule} (h : r ∈ g.prefixes) : r ∈ g.used := by simp [Grammar.used, h]
theorem used_atoms {r : Rule} (h : r ∈ g.atoms) : r ∈ g.used := by simp [Grammar.used, h]
theorem used_infixes {r : Rule} (h : r ∈ g.infixes) : r ∈ g.used := by simp [Grammar.used, h]
theorem used_postfixes {r : Rule} (h : r ∈ g.postfixes) : r ∈ g.used := by simp [Grammar.used, h]

theorem missingAtom_rename (pos : Nat) :
    MRen (SNode.rename φ) (makeMissingAtom g pos) (makeMissingAtom g pos) := new_rename' rfl

theorem missingOperator_rename (a b : SNode) :
    MRen (SNode.rename φ) (makeMissingOperator g a b)
      (makeMissingOperator g (a.rename φ) (b.rename φ)) := by
  unfold makeMissingOperator BuiltIn.errorMissingOperator
  simp only [SNode.rename_range, SNode.rename_hi]
  refine MRen.bind (missingAtom_rename (φ := φ) (g := g) a.hi) fun t => ?_
  exact new_rename' (by simp [SChildren.rename, SNode.renameAll])

theorem unknownAtom_rename (row : Row) (pos : Nat) :
    MRen (SNode.rename φ) (makeUnknownAtom g row pos) (makeUnknownAtom g (renameRow φ row) pos) := by
  unfold makeUnknownAtom
  rw [renameRow_get]
  cases row[pos]? with
  | none => exact MRen.error _
  | some n =>
    cases n with
    | symbol s =>
      simp only [Option.map_some, munwrap, M.ok_bind, Node.rename, BuiltIn.errorUnknownToken]
      exact new_rename' rfl
    | container _ _ _ =>
      simp only [Option.map_some, munwrap, M.ok_bind, Node.rename, BuiltIn.errorUnknownToken]
      exact MRen.error _

theorem unknownStops_rename (h : Keeps g φ) (hc : call.Ren φ) {e : Ending} (he : e.Fixed φ) (row : Row)
    (pos : Nat) :
    MRen id (unknownStops call g row pos e) (unknownStops call g (renameRow φ row) pos e) := by
  unfold unknownStops
  rw [isAtEnd_rename he]
  refine MRen.ite (MRen.ok rfl) ?_
  refine MRen.bind (canParse_rename h hc row pos _ fun _ => used_prefixes) fun a => ?_
  refine MRen.ite (MRen.ok rfl) ?_
  refine MRen.bind (canParse_rename h hc row pos _ fun _ => used_atoms) fun a => ?_
  refine MRen.ite (MRen.ok rfl) ?_
  refine MRen.bind (canParse_rename h hc row pos _ fun _ => used_infixes) fun a => ?_
  refine MRen.ite (MRen.ok rfl) ?_
  exact canParse_rename h hc row pos _ fun _ => used_postfixes

theorem unknownLoop_rename (h : Keeps g φ) (hc : call.Ren φ) {e : Ending} (he : e.Fixed φ) (row : Row)
    (n : Nat) : ∀ (atom : SNode) (pos : Nat),
    MRen (ren4 φ) (unknownLoop call g row e n atom pos)
      (unknownLoop call g (renameRow φ row) e n (atom.rename φ) pos) := by
  induction n with
  | zero => intro atom pos; exact MRen.error _
  | succ n ih =>
    intro atom pos
    unfold unknownLoop
    refine MRen.bind (unknownStops_rename h hc he row pos) fun a => ?_
    refine MRen.ite (MRen.ok rfl) ?_
    refine MRen.bind (unknownAtom_rename row pos) fun next => ?_
    exact MRen.bind (missingOperator_rename atom next) fun t => ih t _

theorem parseUnknown_rename (h : Keeps g φ) (hc : call.Ren φ) {e : Ending} (he : e.Fixed φ) (row : Row)
    (pos : Nat) :
    MRen (ren4 φ) (parseUnknown call g row e pos) (parseUnknown call g (renameRow φ row) e pos) := by
  unfold parseUnknown
  rw [renameRow_length]
  exact MRen.bind (unknownAtom_rename row pos) fun t => unknownLoop_rename h hc he row _ t _

/-- what the first part gives -/
def Start.rename (φ : Char → Char) : Start → Start
  | .left t => .left (t.rename φ)
  | .finished t => .finished (t.rename φ)

/-- what the first part gives, and a position -/
abbrev ren8 (φ : Char → Char) (r : Start × Nat) : Start × Nat := (r.1.rename φ, r.2)

theorem prattStart_rename (h : Keeps g φ) (hc : call.Ren φ) {e : Ending} (he : e.Fixed φ) (row : Row)
    (pos : Nat) :
    MRen (ren8 φ) (prattStart call g row e pos) (prattStart call g (renameRow φ row) e pos) := by
  unfold prattStart
  rw [atInputEnd_rename, isAtEnd_rename he]
  refine MRen.ite (MRen.bind (missingAtom_rename pos) fun t => MRen.ok rfl) ?_
  refine MRen.bind (parseIter_rename h hc row pos _ fun _ => used_prefixes) fun a => ?_
  cases a with
  | some s =>
    simp only [Option.map_some]
    refine MRen.bind (hc row s.2.2 _ e he) fun right => ?_
    rw [PResult.rename_node]
    refine MRen.bind (buildPrefix_rename _ _ _) fun t => ?_
    obtain ⟨right, p⟩ := right
    cases right <;> exact MRen.ok rfl
  | none =>
    refine MRen.bind (parseIter_rename h hc row pos _ fun _ => used_atoms) fun a => ?_
    cases a with
    | some s => exact MRen.ok rfl
    | none =>
      refine MRen.bind (canParseEither_rename h hc row pos _ _ (fun _ => used_infixes)
        fun _ => used_postfixes) fun a => ?_
      refine MRen.ite (MRen.bind (missingAtom_rename pos) fun t => MRen.ok rfl) ?_
      refine MRen.ite (MRen.bind (missingAtom_rename pos) fun t => MRen.ok rfl) ?_
      exact MRen.bind (parseUnknown_rename h hc he row pos) fun t => MRen.ok rfl

theorem prattLoop_rename (h : Keeps g φ) (hc : call.Ren φ) {e : Ending} (he : e.Fixed φ) (row : Row)
    (min : Power) (n : Nat) : ∀ (left : SNode) (pos : Nat),
    MRen (ren5 φ) (prattLoop call g row min e n left pos)
      (prattLoop call g (renameRow φ row) min e n (left.rename φ) pos) := by
  induction n with
  | zero => intro left pos; exact MRen.error _
  | succ n ih =>
    intro left pos
    unfold prattLoop
    rw [atInputEnd_rename, isAtEnd_rename he]
    refine MRen.ite (MRen.ok rfl) ?_
    refine MRen.bind (parseIter_rename h hc row pos _ fun _ => used_infixes) fun a => ?_
    cases a with
    | some s =>
      simp only [Option.map_some]
      refine MRen.ite (MRen.ok rfl) ?_
      refine MRen.bind (hc row s.2.2 _ e he) fun right => ?_
      rw [PResult.rename_node]
      refine MRen.bind (buildInfix_rename _ _ _ _) fun t => ?_
      obtain ⟨right, p⟩ := right
      cases right
      · exact ih t p
      · exact MRen.ok rfl
    | none =>
      refine MRen.bind (parseIter_rename h hc row pos _ fun _ => used_postfixes) fun a => ?_
      cases a with
      | some s =>
        simp only [Option.map_some]
        refine MRen.ite (MRen.ok rfl) ?_
        exact MRen.bind (buildPostfix_rename _ _ _) fun t => ih t _
      | none =>
        refine MRen.bind (canParseEither_rename h hc row pos _ _ (fun _ => used_prefixes)
          fun _ => used_atoms) fun a => ?_
        refine MRen.ite ?_ ?_
        · refine MRen.ite (MRen.ok rfl) ?_
          refine MRen.bind (hc row pos _ e he) fun right => ?_
          change MRen _ (makeMissingOperator g left right.1.node >>= _)
            (makeMissingOperator g (left.rename φ) (right.1.rename φ).node >>= _)
          rw [PResult.rename_node]
          refine MRen.bind (missingOperator_rename _ _) fun t => ?_
          obtain ⟨right, p⟩ := right
          cases right
          · exact ih t p
          · exact MRen.ok rfl
        · refine MRen.ite (MRen.ok rfl) ?_
          refine MRen.bind (parseUnknown_rename h hc he row pos) fun t => ?_
          exact MRen.bind (missingOperator_rename _ _) fun t' => ih t' _

theorem prattBody_rename (h : Keeps g φ) (hc : call.Ren φ) : Rec.Ren φ (prattBody call g) := by
  intro row pos min e he
  unfold prattBody
  rw [renameRow_length]
  refine MRen.bind (prattStart_rename h hc he row pos) fun s => ?_
  obtain ⟨s, p⟩ := s
  cases s with
  | finished t => exact MRen.ok rfl
  | left t => exact prattLoop_rename h hc he row min _ t p

theorem pratt_rename (h : Keeps g φ) (f : Nat) : Rec.Ren φ (pratt g f) := by
  induction f with
  | zero => intro row pos min e he; exact MRen.error _
  | succ f ih => exact prattBody_rename h ih

mutual
theorem Node.rename_weight : (n : Node) → (n.rename φ).weight = n.weight
  | .symbol _ => by simp [Node.rename, Node.weight]
  | .container _ cells _ => by simp [Node.rename, Node.weight, renameCells_weight cells]
theorem renameRow_weight : (r : List Node) → rowWeight (renameRow φ r) = rowWeight r
  | [] => by simp [renameRow]
  | n :: ns => by simp [renameRow, rowWeight, Node.rename_weight n, renameRow_weight ns]
theorem renameCells_weight : (r : List (List Node)) → cellsWeight (renameCells φ r) = cellsWeight r
  | [] => by simp [renameCells]
  | r :: rs => by simp [renameCells, cellsWeight, renameRow_weight r, renameCells_weight rs]
end

theorem parse_rename (h : Keeps g φ) (row : Row) :
    MRen (SNode.rename φ) (g.parse row) (g.parse (renameRow φ row)) := by
  unfold Grammar.parse Grammar.parseFuel
  rw [renameRow_weight]
  exact parseWhole_rename (pratt_rename h _) row

end Aftermath
