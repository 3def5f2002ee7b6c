import Verif.Proof.ParseTotal
import Verif.Spec.Locality
import Verif.Spec.Edit

/-! # The parser does not look into the cells of an element

Two runs on rows that differ only in the contents of cells go in step; their trees differ only in the
trees of cells. -/

namespace Aftermath

/-- `R` holds for the results whenever both sides have one. -/
def Both {α β : Type} (x : M α) (y : M β) (R : α → β → Prop) : Prop :=
  ∀ a b, x = .ok a → y = .ok b → R a b

theorem Both.bind {α β γ δ : Type} {x : M α} {y : M β} {f : α → M γ} {g : β → M δ}
    {R : α → β → Prop} {S : γ → δ → Prop} (h : Both x y R)
    (hf : ∀ a b, R a b → Both (f a) (g b) S) : Both (x >>= f) (y >>= g) S := by
  intro c d hc hd
  obtain ⟨a, ha, hc⟩ := M.bind_eq_ok.1 hc
  obtain ⟨b, hb, hd⟩ := M.bind_eq_ok.1 hd
  exact hf a b (h a b ha hb) c d hc hd

theorem Both.ok {α β : Type} {a : α} {b : β} {R : α → β → Prop} (h : R a b) :
    Both (.ok a) (.ok b) R := by
  intro c d hc hd
  cases hc
  cases hd
  exact h

theorem Both.ite {α β : Type} {p : Prop} [Decidable p] {x x' : M α} {y y' : M β}
    {R : α → β → Prop} (h : Both x y R) (h' : Both x' y' R) :
    Both (if p then x else x') (if p then y else y') R := by
  split
  · exact h
  · exact h'

theorem Both.error {α β : Type} {e : Panic} {y : M β} {R : α → β → Prop} :
    Both (.error e) y R := fun _ _ h => by cases h

theorem Both.refl {α : Type} (x : M α) : Both x x Eq := fun a b h h' => by
  rw [h] at h'
  cases h'
  rfl

/-! ## Without the contents of cells -/

mutual
/-- A syntax tree without the trees of cells. -/
def SNode.bare : SNode → SNode
  | .leaf n lo hi ty ss => .leaf n lo hi ty ss
  | .newRows n lo hi _ w => .newRows n lo hi [] w
  | .children n lo hi cs => .children n lo hi (bareAll cs)
/-- see `SNode.bare` -/
def bareAll : List SNode → List SNode
  | [] => []
  | c :: cs => c.bare :: bareAll cs
end

/-- see `SNode.bare` -/
def SChildren.bare : SChildren → SChildren
  | .leaf ty ss => .leaf ty ss
  | .newRows _ w => .newRows [] w
  | .children cs => .children (bareAll cs)

/-- Equal up to the trees of cells. -/
def Like (t t' : SNode) : Prop := t.bare = t'.bare

theorem bare_lo (t : SNode) : t.bare.lo = t.lo := by cases t <;> simp only [SNode.bare, SNode.lo]
theorem bare_hi (t : SNode) : t.bare.hi = t.hi := by cases t <;> simp only [SNode.bare, SNode.hi]

theorem Like.lo {t t' : SNode} (h : Like t t') : t.lo = t'.lo := by
  rw [← bare_lo t, ← bare_lo t', h]
theorem Like.hi {t t' : SNode} (h : Like t t') : t.hi = t'.hi := by
  rw [← bare_hi t, ← bare_hi t', h]
theorem Like.range {t t' : SNode} (h : Like t t') : t.range = t'.range := by
  simp only [SNode.range, h.lo, h.hi]

theorem make_bare (n lo hi : Nat) (c : SChildren) :
    (SNode.make n lo hi c).bare = SNode.make n lo hi c.bare := by
  cases c <;> simp only [SNode.make, SNode.bare, SChildren.bare]

theorem new_makes {n lo hi : Nat} {c : SChildren} {t : SNode} (h : SNode.new n lo hi c = .ok t) :
    t = SNode.make n lo hi c := by
  unfold SNode.new at h
  obtain ⟨o, -, h⟩ := M.bind_eq_ok.1 h
  cases o with
  | none => simp only [M.ok_bind] at h; cases h; rfl
  | some x =>
    obtain ⟨u, -, h⟩ := M.bind_eq_ok.1 h
    cases h
    rfl

theorem both_new {n lo hi : Nat} {c c' : SChildren} (h : c.bare = c'.bare) :
    Both (SNode.new n lo hi c) (SNode.new n lo hi c') Like := by
  intro t t' ht ht'
  rw [new_makes ht, new_makes ht', Like, make_bare, make_bare, h]

/-- Rows that are equal up to the contents of cells. -/
def SameRow (row row' : Row) : Prop := row.map Node.bare = row'.map Node.bare

variable {row row' : Row}

theorem SameRow.length (h : SameRow row row') : row.length = row'.length := by
  have := congrArg List.length h
  simpa only [List.length_map] using this

theorem SameRow.get (h : SameRow row row') (i : Nat) :
    row[i]?.map Node.bare = row'[i]?.map Node.bare := by
  rw [← List.getElem?_map, ← List.getElem?_map, h]

theorem SameRow.drop (h : SameRow row row') (i : Nat) : SameRow (row.drop i) (row'.drop i) := by
  simp only [SameRow, List.map_drop]
  rw [h]

theorem selectSym_bare (f : Str → Bool) (row : Row) (pos : Nat) :
    selectSym f (row.map Node.bare) pos = selectSym f row pos := by
  unfold selectSym
  rw [List.getElem?_map]
  cases row[pos]? with
  | none => rfl
  | some n => cases n <;> rfl

theorem symRun_bare (f : Str → Bool) : ∀ row : Row, symRun f (row.map Node.bare) = symRun f row
  | [] => rfl
  | .symbol s :: rest => by
    simp only [List.map_cons, Node.bare, symRun, symRun_bare f rest]
  | .container _ _ _ :: rest => by simp only [List.map_cons, Node.bare, symRun]

theorem stringBody_bare : ∀ row : Row, stringBody (row.map Node.bare) = stringBody row
  | [] => rfl
  | .container _ _ _ :: rest => by simp only [List.map_cons, Node.bare, stringBody]
  | [.symbol a] => by simp only [List.map_cons, List.map_nil, Node.bare]
  | .symbol a :: .container _ _ _ :: rest => by
    have h := stringBody_bare (.container ‹_› ‹_› ‹_› :: rest)
    simp only [List.map_cons, Node.bare] at h ⊢
    rw [stringBody.eq_def, stringBody.eq_def (.symbol a :: _)]
    simp only [h]
  | .symbol a :: .symbol b :: rest => by
    have h := stringBody_bare (.symbol b :: rest)
    have h2 := stringBody_bare rest
    simp only [List.map_cons, Node.bare] at h h2 ⊢
    rw [stringBody, stringBody]
    simp only [h, h2]

theorem isPrefixOf_bare (ss : List Str) : ∀ row : Row,
    (ss.map Node.symbol).isPrefixOf (row.map Node.bare) = (ss.map Node.symbol).isPrefixOf row := by
  induction ss with
  | nil => intro row; simp only [List.map_nil, List.isPrefixOf_nil_left]
  | cons s ss ih =>
    intro row
    cases row with
    | nil => rfl
    | cons n row =>
      simp only [List.map_cons, List.isPrefixOf_cons_cons, ih row]
      cases n with
      | symbol s' => simp only [Node.bare]
      | container v cells w =>
        have : (Node.symbol s == Node.bare (.container v cells w)) =
            (Node.symbol s == Node.container v cells w) := by
          rw [beq_eq_false_iff_ne.2 (by simp [Node.bare]), beq_eq_false_iff_ne.2 (by simp)]
        rw [this]

theorem SameRow.selectSym (h : SameRow row row') (f : Str → Bool) (pos : Nat) :
    selectSym f row pos = Aftermath.selectSym f row' pos := by
  rw [← selectSym_bare, ← selectSym_bare f row', h]

theorem SameRow.symRun (h : SameRow row row') (f : Str → Bool) :
    symRun f row = Aftermath.symRun f row' := by
  rw [← symRun_bare, ← symRun_bare f row', h]

theorem SameRow.stringBody (h : SameRow row row') : stringBody row = Aftermath.stringBody row' := by
  rw [← stringBody_bare, ← stringBody_bare row', h]

theorem SameRow.justSymbols (h : SameRow row row') (ss : List Str) (pos : Nat) :
    justSymbols ss row pos = Aftermath.justSymbols ss row' pos := by
  unfold Aftermath.justSymbols
  rw [← isPrefixOf_bare, ← isPrefixOf_bare ss (row'.drop pos), h.drop pos]

theorem SameRow.parseVariable (h : SameRow row row') (g : Grammar) (pos : Nat) :
    parseVariable g row pos = Aftermath.parseVariable g row' pos := by
  unfold Aftermath.parseVariable
  rw [h.selectSym]
  cases Aftermath.selectSym (isIdentifierStart g) row' pos with
  | none => rfl
  | some x =>
    obtain ⟨a, p⟩ := x
    simp only [Option.bind_eq_bind, Option.bind_some, (h.drop p).symRun]

theorem SameRow.numberDigits (h : SameRow row row') (pos : Nat) :
    numberDigits row pos = Aftermath.numberDigits row' pos := by
  unfold Aftermath.numberDigits
  rw [(h.drop pos).symRun]

theorem SameRow.parseNumber (h : SameRow row row') (pos : Nat) :
    parseNumber row pos = Aftermath.parseNumber row' pos := by
  have hf : ∀ p, parseFractional row p = parseFractional row' p := by
    intro p
    unfold parseFractional
    rw [h.selectSym]
    simp only [h.numberDigits]
  unfold Aftermath.parseNumber
  rw [h.numberDigits]
  simp only [hf]

theorem SameRow.parseString (h : SameRow row row') (pos : Nat) :
    parseString row pos = Aftermath.parseString row' pos := by
  unfold Aftermath.parseString
  simp only [h.selectSym, fun p => (h.drop p).stringBody]

theorem SameRow.atInputEnd (h : SameRow row row') (pos : Nat) :
    atInputEnd row pos = Aftermath.atInputEnd row' pos := by
  unfold Aftermath.atInputEnd
  rw [h.length]

theorem SameRow.isAtEnd (h : SameRow row row') (pos : Nat) (e : Ending) :
    isAtEnd row pos e = Aftermath.isAtEnd row' pos e := by
  cases e <;> simp only [Aftermath.isAtEnd, h.atInputEnd, h.selectSym]

theorem SameRow.parseSpaces (h : SameRow row row') (g : Grammar) (pos : Nat) :
    parseSpaces g row pos = Aftermath.parseSpaces g row' pos := by
  unfold Aftermath.parseSpaces
  rw [(h.drop pos).symRun]

/-! ## Two runs in step -/

/-- Both failed, or the trees are alike and end at the same place. -/
def LikeO : Option (SNode × Nat) → Option (SNode × Nat) → Prop
  | none, none => True
  | some x, some y => Like x.1 y.1 ∧ x.2 = y.2
  | _, _ => False

/-- see `LikeO` -/
def LikeC : Option (SChildren × Nat) → Option (SChildren × Nat) → Prop
  | none, none => True
  | some x, some y => x.1.bare = y.1.bare ∧ x.2 = y.2
  | _, _ => False

/-- see `LikeO`; the rule is the same. -/
def LikeR : Option (SNode × Rule × Nat) → Option (SNode × Rule × Nat) → Prop
  | none, none => True
  | some x, some y => Like x.1 y.1 ∧ x.2 = y.2
  | _, _ => False

/-- The same kind of result, with trees that are alike. -/
def LikeP : PResult × Nat → PResult × Nat → Prop
  | (.expression t, p), (.expression t', p') => Like t t' ∧ p = p'
  | (.stop t, p), (.stop t', p') => Like t t' ∧ p = p'
  | _, _ => False

theorem LikeC.refl (o : Option (SChildren × Nat)) : LikeC o o := by
  cases o with
  | none => exact trivial
  | some x => exact ⟨rfl, rfl⟩

/-- Recursive calls on both rows go in step. -/
def InStep (call : Rec) (row row' : Row) : Prop :=
  ∀ pos min e, Both (call row pos min e) (call row' pos min e) LikeP

variable {call : Rec}

theorem LikeP.node {a b : PResult × Nat} (h : LikeP a b) : Like a.1.node b.1.node ∧ a.2 = b.2 := by
  obtain ⟨r, p⟩ := a
  obtain ⟨r', p'⟩ := b
  cases r <;> cases r' <;> first | exact h | exact h.elim

theorem gridValues {α : Type} {l : List α} {w : Nat} {gr : GridVec α}
    (h : GridVec.fromOneDimensional l w = .ok gr) : gr.width = w := by
  unfold GridVec.fromOneDimensional at h
  split at h
  · cases h
  · split at h
    · cases h; rfl
    · cases h

theorem both_container (h : SameRow row row') (v : Variant) (pos : Nat) :
    Both (parseContainer call v row pos) (parseContainer call v row' pos) LikeC := by
  unfold parseContainer
  have hg := h.get pos
  cases hr : row[pos]? with
  | none =>
    rw [hr] at hg
    cases hr' : row'[pos]? with
    | none => exact Both.ok trivial
    | some n => rw [hr'] at hg; cases hg
  | some n =>
    rw [hr] at hg
    cases hr' : row'[pos]? with
    | none => rw [hr'] at hg; cases hg
    | some n' =>
      rw [hr'] at hg
      simp only [Option.map_some, Option.some.injEq] at hg
      cases n with
      | symbol s =>
        cases n' with
        | symbol s' => exact Both.ok trivial
        | container _ _ _ => simp only [Node.bare] at hg; cases hg
      | container v1 cells w =>
        cases n' with
        | symbol s' => simp only [Node.bare] at hg; cases hg
        | container v2 cells' w' =>
          simp only [Node.bare, Node.container.injEq] at hg
          obtain ⟨rfl, -, rfl⟩ := hg
          refine Both.ite ?_ (Both.ok trivial)
          intro a b ha hb
          obtain ⟨ts, -, ha⟩ := M.bind_eq_ok.1 ha
          obtain ⟨gr, h1, ha⟩ := M.bind_eq_ok.1 ha
          obtain ⟨ts', -, hb⟩ := M.bind_eq_ok.1 hb
          obtain ⟨gr', h1', hb⟩ := M.bind_eq_ok.1 hb
          cases ha
          cases hb
          exact ⟨by simp only [SChildren.bare, gridValues h1, gridValues h1'], rfl⟩

theorem both_brackets (h : SameRow row row') (hc : InStep call row row') (n : Nat) (o c : Str)
    (pos : Nat) :
    Both (parseBrackets call n o c row pos) (parseBrackets call n o c row' pos) LikeC := by
  unfold parseBrackets
  rw [h.selectSym]
  cases Aftermath.selectSym (fun s => s == o) row' pos with
  | none => exact Both.ok trivial
  | some x =>
    refine Both.bind (hc _ _ _) fun a b hab => ?_
    obtain ⟨h1, h2⟩ := hab.node
    obtain ⟨r, p⟩ := a
    obtain ⟨r', p'⟩ := b
    simp only at h1 h2 ⊢
    subst h2
    rw [h.selectSym]
    cases Aftermath.selectSym (fun s => s == c) row' p with
    | none => exact Both.ok trivial
    | some y =>
      refine Both.bind (Both.refl _) fun l l' hl => Both.bind (Both.refl _) fun r r' hr => ?_
      subst hl hr
      exact Both.ok ⟨by simp only [SChildren.bare, bareAll,
        show _ = _ from h1], rfl⟩

theorem both_emptyBrackets (h : SameRow row row') (n : Nat) (o c : Str) (pos : Nat) :
    parseEmptyBrackets n o c row pos = parseEmptyBrackets n o c row' pos := by
  unfold parseEmptyBrackets
  simp only [h.selectSym]

theorem both_eq {α : Type} {x y : M α} {R : α → α → Prop} (h : x = y) (hr : ∀ a, R a a) :
    Both x y R := by
  intro a b ha hb
  rw [h, hb] at ha
  cases ha
  exact hr _

theorem both_token (h : SameRow row row') (hc : InStep call row row') (g : Grammar)
    (tp : TokenParser) (pos : Nat) :
    Both (tokenParse call g tp row pos) (tokenParse call g tp row' pos) LikeC := by
  cases tp with
  | brackets n o c => exact both_brackets h hc n o c pos
  | container v => exact both_container h v pos
  | symbols ss ty => exact both_eq (by simp only [tokenParse, h.justSymbols]) LikeC.refl
  | emptyBrackets n o c => exact both_eq (both_emptyBrackets h n o c pos) LikeC.refl
  | «variable» => exact both_eq (by simp only [tokenParse, h.parseVariable]) LikeC.refl
  | number => exact both_eq (by simp only [tokenParse, h.parseNumber]) LikeC.refl
  | string => exact both_eq (by simp only [tokenParse, h.parseString]) LikeC.refl

theorem both_whitespaces (b : BuiltIn) (before after : Option SNode) {t t' : SNode} (lo hi : Nat)
    (h : Like t t') :
    Both (b.whitespacesNode before t after lo hi) (b.whitespacesNode before t' after lo hi) Like := by
  unfold BuiltIn.whitespacesNode
  have h' : t.bare = t'.bare := h
  cases before <;> cases after
  · exact Both.ok h
  all_goals exact both_new (by simp only [SChildren.bare, bareAll, h'])

theorem both_script (h : SameRow row row') (g : Grammar) (v : Variant) (pos : Nat) :
    Both (parseScript call g v row pos) (parseScript call g v row' pos) LikeO := by
  unfold parseScript
  refine Both.bind (both_container h v pos) fun a b hab => ?_
  cases a with
  | none =>
    cases b with
    | none => exact Both.ok trivial
    | some y => exact hab.elim
  | some x =>
    cases b with
    | none => exact hab.elim
    | some y =>
      obtain ⟨c, p⟩ := x
      obtain ⟨c', p'⟩ := y
      obtain ⟨h1, h2⟩ := hab
      simp only at h1 h2
      subst h2
      refine Both.bind (both_new h1) fun t t' ht => ?_
      rw [h.parseSpaces]
      refine Both.bind (Both.refl _) fun s s' hs => ?_
      subst hs
      refine Both.bind (both_whitespaces _ _ _ _ _ ht) fun t t' ht => ?_
      exact Both.ok ⟨ht, rfl⟩

theorem both_postfix {op op' l l' : SNode} (name : Nat) (ho : Like op op') (hl : Like l l') :
    Both (buildPostfix name op l) (buildPostfix name op' l') Like := by
  unfold buildPostfix
  rw [ho.range, hl.range]
  exact both_new (by simp only [SChildren.bare, bareAll, show op.bare = op'.bare from ho,
    show l.bare = l'.bare from hl])

theorem both_prefix {op op' l l' : SNode} (name : Nat) (ho : Like op op') (hl : Like l l') :
    Both (buildPrefix name op l) (buildPrefix name op' l') Like := by
  unfold buildPrefix
  rw [ho.range, hl.range]
  exact both_new (by simp only [SChildren.bare, bareAll, show op.bare = op'.bare from ho,
    show l.bare = l'.bare from hl])

theorem both_infix {op op' l l' r r' : SNode} (name : Nat) (ho : Like op op') (hl : Like l l')
    (hr : Like r r') : Both (buildInfix name op l r) (buildInfix name op' l' r') Like := by
  unfold buildInfix
  rw [ho.range, hl.range, hr.range]
  exact both_new (by simp only [SChildren.bare, bareAll, show op.bare = op'.bare from ho,
    show l.bare = l'.bare from hl, show r.bare = r'.bare from hr])

theorem both_missingOperator (g : Grammar) {l l' r r' : SNode} (hl : Like l l')
    (hr : Like r r') : Both (makeMissingOperator g l r) (makeMissingOperator g l' r') Like := by
  unfold makeMissingOperator BuiltIn.errorMissingOperator
  rw [hl.range, hr.range, hl.hi]
  refine Both.bind (Both.refl _) fun m m' hm => ?_
  subst hm
  exact both_new (by simp only [SChildren.bare, bareAll,
    show l.bare = l'.bare from hl, show r.bare = r'.bare from hr])

theorem LikeO.cases {a b : Option (SNode × Nat)} (h : LikeO a b) :
    (a = none ∧ b = none) ∨ ∃ t t' p, a = some (t, p) ∧ b = some (t', p) ∧ Like t t' := by
  cases a with
  | none =>
    cases b with
    | none => exact .inl ⟨rfl, rfl⟩
    | some y => exact h.elim
  | some x =>
    cases b with
    | none => exact h.elim
    | some y =>
      obtain ⟨t, p⟩ := x
      obtain ⟨t', p'⟩ := y
      obtain ⟨h1, h2⟩ := h
      simp only at h1 h2
      subst h2
      exact .inr ⟨t, t', p, rfl, rfl, h1⟩

theorem LikeR.cases {a b : Option (SNode × Rule × Nat)} (h : LikeR a b) :
    (a = none ∧ b = none) ∨ ∃ t t' r p, a = some (t, r, p) ∧ b = some (t', r, p) ∧ Like t t' := by
  cases a with
  | none =>
    cases b with
    | none => exact .inl ⟨rfl, rfl⟩
    | some y => exact h.elim
  | some x =>
    cases b with
    | none => exact h.elim
    | some y =>
      obtain ⟨t, r, p⟩ := x
      obtain ⟨t', r', p'⟩ := y
      obtain ⟨h1, h2⟩ := h
      simp only [Prod.mk.injEq] at h1 h2
      obtain ⟨rfl, rfl⟩ := h2
      exact .inr ⟨t, t', r, p, rfl, rfl, h1⟩

/-- Trees that are alike and end at the same place. -/
def LikeT (x y : SNode × Nat) : Prop := Like x.1 y.1 ∧ x.2 = y.2

theorem both_scripts (h : SameRow row row') (g : Grammar) (n : Nat) :
    ∀ {t t' : SNode} (pos : Nat), Like t t' →
      Both (parseScripts call g row n t pos) (parseScripts call g row' n t' pos) LikeT := by
  induction n with
  | zero => intro t t' pos _; exact Both.error
  | succ n ih =>
    intro t t' pos ht
    unfold parseScripts
    refine Both.bind (both_script h g _ pos) fun a b hab => ?_
    obtain ⟨rfl, rfl⟩ | ⟨s, s', p, rfl, rfl, hs⟩ := hab.cases
    · refine Both.bind (both_script h g _ pos) fun a b hab => ?_
      obtain ⟨rfl, rfl⟩ | ⟨s, s', p, rfl, rfl, hs⟩ := hab.cases
      · exact Both.ok ⟨ht, rfl⟩
      · exact Both.bind (both_postfix _ hs ht) fun _ _ h => ih _ h
    · exact Both.bind (both_postfix _ hs ht) fun _ _ h => ih _ h

theorem both_rule (h : SameRow row row') (hc : InStep call row row') (g : Grammar) (r : Rule)
    (pos : Nat) : Both (ruleParse call g r row pos) (ruleParse call g r row' pos) LikeO := by
  unfold ruleParse
  rw [h.parseSpaces]
  refine Both.bind (Both.refl _) fun s s' hs => ?_
  subst hs
  obtain ⟨before, p1⟩ := s
  refine Both.bind (both_token h hc g r.parser p1) fun a b hab => ?_
  cases a with
  | none =>
    cases b with
    | none => exact Both.ok trivial
    | some y => exact hab.elim
  | some x =>
    cases b with
    | none => exact hab.elim
    | some y =>
      obtain ⟨c, p⟩ := x
      obtain ⟨c', p'⟩ := y
      obtain ⟨h1, h2⟩ := hab
      simp only at h1 h2
      subst h2
      refine Both.bind (both_new h1) fun t t' ht => ?_
      rw [h.parseSpaces]
      refine Both.bind (Both.refl _) fun s s' hs => ?_
      subst hs
      obtain ⟨after, p3⟩ := s
      refine Both.bind (both_whitespaces _ _ _ _ _ ht) fun t t' ht => ?_
      refine Both.ite ?_ (Both.ok ⟨ht, rfl⟩)
      rw [h.length]
      refine Both.bind (both_scripts h g _ _ ht) fun a b hab => ?_
      exact Both.ok hab

theorem both_iter (h : SameRow row row') (hc : InStep call row row') (g : Grammar) (pos : Nat)
    (rs : List Rule) : Both (parseIter call g row pos rs) (parseIter call g row' pos rs) LikeR := by
  induction rs with
  | nil => exact Both.ok trivial
  | cons r rs ih =>
    unfold parseIter
    refine Both.bind (both_rule h hc g r pos) fun a b hab => ?_
    obtain ⟨rfl, rfl⟩ | ⟨s, s', p, rfl, rfl, hs⟩ := hab.cases
    · exact ih
    · exact Both.ok ⟨hs, rfl⟩

theorem both_can (h : SameRow row row') (hc : InStep call row row') (g : Grammar) (pos : Nat)
    (rs : List Rule) : Both (canParse call g row pos rs) (canParse call g row' pos rs) Eq := by
  unfold canParse
  refine Both.bind (both_iter h hc g pos rs) fun a b hab => ?_
  obtain ⟨rfl, rfl⟩ | ⟨s, s', r, p, rfl, rfl, hs⟩ := hab.cases
  · exact Both.ok rfl
  · exact Both.ok rfl

theorem both_either (h : SameRow row row') (hc : InStep call row row') (g : Grammar) (pos : Nat)
    (rs rs' : List Rule) :
    Both (canParseEither call g row pos rs rs') (canParseEither call g row' pos rs rs') Eq := by
  unfold canParseEither
  refine Both.bind (both_can h hc g pos rs) fun a b hab => ?_
  subst hab
  exact Both.ite (Both.ok rfl) (both_can h hc g pos rs')

theorem both_stops (h : SameRow row row') (hc : InStep call row row') (g : Grammar) (pos : Nat)
    (e : Ending) : Both (unknownStops call g row pos e) (unknownStops call g row' pos e) Eq := by
  unfold unknownStops
  rw [h.isAtEnd]
  refine Both.ite (Both.ok rfl) ?_
  refine Both.bind (both_can h hc g pos _) fun a b hab => ?_
  subst hab
  refine Both.ite (Both.ok rfl) ?_
  refine Both.bind (both_can h hc g pos _) fun a b hab => ?_
  subst hab
  refine Both.ite (Both.ok rfl) ?_
  refine Both.bind (both_can h hc g pos _) fun a b hab => ?_
  subst hab
  exact Both.ite (Both.ok rfl) (both_can h hc g pos _)

theorem both_unknownAtom (h : SameRow row row') (g : Grammar) (pos : Nat) :
    Both (makeUnknownAtom g row pos) (makeUnknownAtom g row' pos) Like := by
  unfold makeUnknownAtom
  have hg := h.get pos
  cases hr : row[pos]? with
  | none => exact fun a b ha => by cases ha
  | some n =>
    cases hr' : row'[pos]? with
    | none => exact fun a b _ hb => by cases hb
    | some n' =>
      rw [hr, hr'] at hg
      simp only [Option.map_some, Option.some.injEq] at hg
      cases n with
      | container _ _ _ => exact fun a b ha => by cases ha
      | symbol s =>
        cases n' with
        | container _ _ _ => exact fun a b _ hb => by cases hb
        | symbol s' =>
          simp only [Node.bare, Node.symbol.injEq] at hg
          subst hg
          exact both_eq rfl fun _ => rfl

theorem both_unknownLoop (h : SameRow row row') (hc : InStep call row row') (g : Grammar)
    (e : Ending) (n : Nat) : ∀ {t t' : SNode} (pos : Nat), Like t t' →
      Both (unknownLoop call g row e n t pos) (unknownLoop call g row' e n t' pos) LikeT := by
  induction n with
  | zero => intro t t' pos _; exact Both.error
  | succ n ih =>
    intro t t' pos ht
    unfold unknownLoop
    refine Both.bind (both_stops h hc g pos e) fun a b hab => ?_
    subst hab
    refine Both.ite (Both.ok ⟨ht, rfl⟩) ?_
    refine Both.bind (both_unknownAtom h g pos) fun u u' hu => ?_
    exact Both.bind (both_missingOperator g ht hu) fun _ _ h => ih _ h

theorem both_unknown (h : SameRow row row') (hc : InStep call row row') (g : Grammar)
    (e : Ending) (pos : Nat) :
    Both (parseUnknown call g row e pos) (parseUnknown call g row' e pos) LikeT := by
  unfold parseUnknown
  refine Both.bind (both_unknownAtom h g pos) fun u u' hu => ?_
  rw [h.length]
  exact both_unknownLoop h hc g e _ _ hu

/-- see `LikeP` -/
def LikeS : Start × Nat → Start × Nat → Prop
  | (.left t, p), (.left t', p') => Like t t' ∧ p = p'
  | (.finished t, p), (.finished t', p') => Like t t' ∧ p = p'
  | _, _ => False

theorem both_missingAtom (g : Grammar) (pos : Nat) :
    Both (makeMissingAtom g pos) (makeMissingAtom g pos) Like := both_eq rfl fun _ => rfl

theorem LikeP.cases {a b : PResult × Nat} (h : LikeP a b) :
    (∃ t t' p, a = (.expression t, p) ∧ b = (.expression t', p) ∧ Like t t') ∨
    (∃ t t' p, a = (.stop t, p) ∧ b = (.stop t', p) ∧ Like t t') := by
  obtain ⟨r, p⟩ := a
  obtain ⟨r', p'⟩ := b
  cases r <;> cases r'
  · obtain ⟨h, rfl⟩ := h
    exact .inl ⟨_, _, _, rfl, rfl, h⟩
  · exact h.elim
  · exact h.elim
  · obtain ⟨h, rfl⟩ := h
    exact .inr ⟨_, _, _, rfl, rfl, h⟩

theorem both_start (h : SameRow row row') (hc : InStep call row row') (g : Grammar)
    (e : Ending) (pos : Nat) :
    Both (prattStart call g row e pos) (prattStart call g row' e pos) LikeS := by
  unfold prattStart
  rw [h.atInputEnd]
  refine Both.ite ?_ ?_
  · exact Both.bind (both_missingAtom g pos) fun t t' ht => Both.ok ⟨ht, rfl⟩
  refine Both.bind (both_iter h hc g pos _) fun a b hab => ?_
  obtain ⟨rfl, rfl⟩ | ⟨op, op', r, p, rfl, rfl, hop⟩ := hab.cases
  · refine Both.bind (both_iter h hc g pos _) fun a b hab => ?_
    obtain ⟨rfl, rfl⟩ | ⟨op, op', r, p, rfl, rfl, hop⟩ := hab.cases
    · refine Both.bind (both_either h hc g pos _ _) fun a b hab => ?_
      subst hab
      refine Both.ite ?_ ?_
      · exact Both.bind (both_missingAtom g pos) fun t t' ht => Both.ok ⟨ht, rfl⟩
      rw [h.isAtEnd]
      refine Both.ite ?_ ?_
      · exact Both.bind (both_missingAtom g pos) fun t t' ht => Both.ok ⟨ht, rfl⟩
      refine Both.bind (both_unknown h hc g e pos) fun a b hab => ?_
      exact Both.ok hab
    · exact Both.ok ⟨hop, rfl⟩
  · refine Both.bind (hc _ _ _) fun a b hab => ?_
    obtain ⟨t, t', q, rfl, rfl, ht⟩ | ⟨t, t', q, rfl, rfl, ht⟩ := hab.cases
    · exact Both.bind (both_prefix _ hop ht) fun _ _ h => Both.ok ⟨h, rfl⟩
    · exact Both.bind (both_prefix _ hop ht) fun _ _ h => Both.ok ⟨h, rfl⟩

theorem both_loop (h : SameRow row row') (hc : InStep call row row') (g : Grammar) (min : Power)
    (e : Ending) (n : Nat) : ∀ {t t' : SNode} (pos : Nat), Like t t' →
      Both (prattLoop call g row min e n t pos) (prattLoop call g row' min e n t' pos) LikeP := by
  induction n with
  | zero => intro t t' pos _; exact Both.error
  | succ n ih =>
    intro t t' pos ht
    unfold prattLoop
    rw [h.atInputEnd]
    refine Both.ite (Both.ok ⟨ht, rfl⟩) ?_
    refine Both.bind (both_iter h hc g pos _) fun a b hab => ?_
    obtain ⟨rfl, rfl⟩ | ⟨op, op', r, p, rfl, rfl, hop⟩ := hab.cases
    · refine Both.bind (both_iter h hc g pos _) fun a b hab => ?_
      obtain ⟨rfl, rfl⟩ | ⟨op, op', r, p, rfl, rfl, hop⟩ := hab.cases
      · refine Both.bind (both_either h hc g pos _ _) fun a b hab => ?_
        subst hab
        refine Both.ite ?_ ?_
        · refine Both.ite (Both.ok ⟨ht, rfl⟩) ?_
          refine Both.bind (hc _ _ _) fun a b hab => ?_
          obtain ⟨s, s', q, rfl, rfl, hs⟩ | ⟨s, s', q, rfl, rfl, hs⟩ := hab.cases
          · exact Both.bind (both_missingOperator g ht hs) fun _ _ h => ih _ h
          · exact Both.bind (both_missingOperator g ht hs) fun _ _ h => Both.ok ⟨h, rfl⟩
        rw [h.isAtEnd]
        refine Both.ite (Both.ok ⟨ht, rfl⟩) ?_
        refine Both.bind (both_unknown h hc g e pos) fun a b hab => ?_
        obtain ⟨s, q⟩ := a
        obtain ⟨s', q'⟩ := b
        obtain ⟨hs, hq⟩ := hab
        simp only at hs hq
        subst hq
        exact Both.bind (both_missingOperator g ht hs) fun _ _ h => ih _ h
      · refine Both.ite (Both.ok ⟨ht, rfl⟩) ?_
        exact Both.bind (both_postfix _ hop ht) fun _ _ h => ih _ h
    · refine Both.ite (Both.ok ⟨ht, rfl⟩) ?_
      refine Both.bind (hc _ _ _) fun a b hab => ?_
      obtain ⟨s, s', q, rfl, rfl, hs⟩ | ⟨s, s', q, rfl, rfl, hs⟩ := hab.cases
      · exact Both.bind (both_infix _ hop ht hs) fun _ _ h => ih _ h
      · exact Both.bind (both_infix _ hop ht hs) fun _ _ h => Both.ok ⟨h, rfl⟩

theorem both_body (h : SameRow row row') (hc : InStep call row row') (g : Grammar) :
    InStep (prattBody call g) row row' := by
  intro pos min e
  unfold prattBody
  refine Both.bind (both_start h hc g e pos) fun a b hab => ?_
  obtain ⟨s, p⟩ := a
  obtain ⟨s', p'⟩ := b
  cases s <;> cases s'
  · obtain ⟨ht, rfl⟩ := hab
    simp only [h.length]
    exact both_loop h hc g min e _ _ ht
  · exact hab.elim
  · exact hab.elim
  · exact Both.ok hab

theorem inStep (h : SameRow row row') (g : Grammar) : ∀ f, InStep (pratt g f) row row'
  | 0 => fun _ _ _ => Both.error
  | f + 1 => both_body h (inStep h g f) g

theorem parse_like (h : SameRow row row') (g : Grammar) (f : Nat) :
    Both (g.parseFuel f row) (g.parseFuel f row') Like := by
  unfold Grammar.parseFuel parseWhole
  refine Both.bind (inStep h g f _ _ _) fun a b hab => ?_
  obtain ⟨h1, h2⟩ := hab.node
  obtain ⟨r, p⟩ := a
  obtain ⟨r', p'⟩ := b
  simp only at h1 h2 ⊢
  subst h2
  rw [h.length]
  exact Both.ite (Both.ok h1) Both.error

/-! ## From trees that are alike to trees that differ below one row -/

theorem ParsesTo.unique {g : Grammar} {r : Row} {t t' : SNode} (h : ParsesTo g r t)
    (h' : ParsesTo g r t') : t = t' := by
  obtain ⟨f, h⟩ := h
  obtain ⟨f', h'⟩ := h'
  have h1 := parseWhole_mono (pratt_mono g (Nat.le_add_right f f')) r t h
  have h2 := parseWhole_mono (pratt_mono g (Nat.le_add_left f' f)) r t' h'
  rw [h1] at h2
  cases h2
  rfl

theorem cells_unique {g : Grammar} : ∀ {cells : List Row} {ts ts' : List SNode},
    FillsCells (ParsesTo g) cells ts → FillsCells (ParsesTo g) cells ts' → ts = ts'
  | [], [], [], _, _ => rfl
  | [], _ :: _, _, h, _ => by simp only [FillsCells] at h
  | [], [], _ :: _, _, h => by simp only [FillsCells] at h
  | _ :: _, [], _, h, _ => by simp only [FillsCells] at h
  | _ :: _, _ :: _, [], _, h => by simp only [FillsCells] at h
  | r :: rs, t :: ts, t' :: ts', h, h' => by
    simp only [FillsCells] at h h'
    rw [h.2.2.1.unique h'.2.2.1, cells_unique h.2.2.2.2 h'.2.2.2.2]

theorem cells_differ {g : Grammar} {c c' : Row} : ∀ {cells cells' : List Row} {ts ts' : List SNode}
    {j : Nat}, cells'.length = cells.length → cells[j]? = some c → cells'[j]? = some c' →
    (∀ k, k ≠ j → cells'[k]? = cells[k]?) →
    FillsCells (ParsesTo g) cells ts → FillsCells (ParsesTo g) cells' ts' →
    ∃ a b t t', ts = a ++ t :: b ∧ ts' = a ++ t' :: b ∧ a.length = j ∧ ParsesTo g c t ∧
      ParsesTo g c' t'
  | [], _, _, _, _, _, hj, _, _, _, _ => by simp only [List.getElem?_nil] at hj; cases hj
  | _ :: _, [], _, _, _, _, _, hj, _, _, _ => by simp only [List.getElem?_nil] at hj; cases hj
  | _ :: _, _ :: _, [], _, _, _, _, _, _, h, _ => by simp only [FillsCells] at h
  | _ :: _, _ :: _, _ :: _, [], _, _, _, _, _, _, h => by simp only [FillsCells] at h
  | r :: rs, r' :: rs', t :: ts, t' :: ts', 0, hl, hj, hj', ho, h, h' => by
    simp only [List.getElem?_cons_zero, Option.some.injEq] at hj hj'
    subst hj hj'
    simp only [FillsCells] at h h'
    have : rs' = rs := by
      refine List.ext_getElem? fun k => ?_
      have := ho (k + 1) (by omega)
      simpa only [List.getElem?_cons_succ] using this
    subst this
    rw [cells_unique h'.2.2.2.2 h.2.2.2.2]
    exact ⟨[], ts, t, t', rfl, rfl, rfl, h.2.2.1, h'.2.2.1⟩
  | r :: rs, r' :: rs', t :: ts, t' :: ts', j + 1, hl, hj, hj', ho, h, h' => by
    simp only [List.getElem?_cons_succ] at hj hj'
    simp only [FillsCells] at h h'
    have h0 := ho 0 (by omega)
    simp only [List.getElem?_cons_zero, Option.some.injEq] at h0
    subst h0
    obtain ⟨a, b, u, u', rfl, rfl, h1, h2, h3⟩ := cells_differ (j := j)
      (by simpa only [List.length_cons, Nat.add_right_cancel_iff] using hl) hj hj'
      (fun k hk => by
        have := ho (k + 1) (by omega)
        simpa only [List.getElem?_cons_succ] using this) h.2.2.2.2 h'.2.2.2.2
    rw [h.2.2.1.unique h'.2.2.1]
    exact ⟨t' :: a, b, u, u', rfl, rfl, by simp only [List.length_cons, h1], h2, h3⟩

/-- Two rows that differ only in one cell of one element. -/
structure OneCell (row row' : Row) (i j : Nat) (c c' : Row) where
  v : Variant
  cells : List Row
  cells' : List Row
  w : Nat
  hlen : row'.length = row.length
  hnode : row[i]? = some (.container v cells w)
  hnode' : row'[i]? = some (.container v cells' w)
  hother : ∀ k, k ≠ i → row'[k]? = row[k]?
  hclen : cells'.length = cells.length
  hcell : cells[j]? = some c
  hcell' : cells'[j]? = some c'
  hcother : ∀ k, k ≠ j → cells'[k]? = cells[k]?

theorem map_const_eq {α : Type} : ∀ {l l' : List α}, l'.length = l.length →
    (l.map fun _ => ([] : Row)) = l'.map fun _ => []
  | [], [], _ => rfl
  | [], _ :: _, h => by cases h
  | _ :: _, [], h => by cases h
  | _ :: _, _ :: _, h => by
    simp only [List.map_cons]
    rw [map_const_eq (by simpa only [List.length_cons, Nat.add_right_cancel_iff] using h)]

theorem OneCell.same {i j : Nat} {c c' : Row} (d : OneCell row row' i j c c') :
    SameRow row row' := by
  refine List.ext_getElem? fun k => ?_
  rw [List.getElem?_map, List.getElem?_map]
  by_cases hk : k = i
  · subst hk
    rw [d.hnode, d.hnode']
    simp only [Option.map_some, Node.bare, map_const_eq d.hclen]
  · rw [d.hother k hk]

/-- `t'` is `t` with something done in a cell. -/
def CellDiffers (g : Grammar) (i j : Nat) (c c' : Row) (t t' : SNode) : Prop :=
  ∃ u u', ParsesTo g c u ∧ ParsesTo g c' u' ∧
    ∀ path s s', TreeReplaced path s s' u u' → TreeReplaced ((i, j) :: path) s s' t t'

mutual
theorem like_differ {g : Grammar} {i j : Nat} {c c' : Row} (d : OneCell row row' i j c c') :
    ∀ {t t' : SNode}, Like t t' → Fills (ParsesTo g) row t → Fills (ParsesTo g) row' t' →
      (¬ (t.lo ≤ i ∧ i < t.hi) → t = t') ∧ (t.lo ≤ i ∧ i < t.hi → CellDiffers g i j c c' t t')
  | .leaf n lo hi ty ss, .leaf n' lo' hi' ty' ss', h, hf, _ => by
    simp only [Like, SNode.bare] at h
    refine ⟨fun _ => h, fun hin => ?_⟩
    simp only [SNode.lo, SNode.hi] at hin
    simp only [Fills] at hf
    obtain ⟨-, ss, h1, h2, -⟩ := hf
    have h3 : ((row.drop lo).take (hi - lo))[i - lo]? = row[i]? := by
      rw [List.getElem?_take_of_lt (by omega), List.getElem?_drop]
      congr 1
      omega
    rw [h1, d.hnode, List.getElem?_map] at h3
    cases hs : ss[i - lo]? with
    | none => rw [hs] at h3; cases h3
    | some x => rw [hs] at h3; cases h3
  | .leaf _ _ _ _ _, .newRows _ _ _ _ _, h, _, _ => by simp only [Like, SNode.bare] at h; cases h
  | .leaf _ _ _ _ _, .children _ _ _ _, h, _, _ => by simp only [Like, SNode.bare] at h; cases h
  | .newRows _ _ _ _ _, .leaf _ _ _ _ _, h, _, _ => by simp only [Like, SNode.bare] at h; cases h
  | .newRows _ _ _ _ _, .children _ _ _ _, h, _, _ => by simp only [Like, SNode.bare] at h; cases h
  | .children _ _ _ _, .newRows _ _ _ _ _, h, _, _ => by simp only [Like, SNode.bare] at h; cases h
  | .children _ _ _ _, .leaf _ _ _ _ _, h, _, _ => by simp only [Like, SNode.bare] at h; cases h
  | .newRows n lo hi ts w, .newRows n' lo' hi' ts' w', h, hf, hf' => by
    simp only [Like, SNode.bare, SNode.newRows.injEq] at h
    obtain ⟨rfl, rfl, rfl, -, rfl⟩ := h
    simp only [Fills] at hf hf'
    obtain ⟨rfl, v, cells, h1, h2⟩ := hf
    obtain ⟨-, v', cells', h1', h2'⟩ := hf'
    simp only [SNode.lo, SNode.hi]
    refine ⟨fun hi => ?_, fun hi => ?_⟩
    · rw [d.hother lo (by omega), h1] at h1'
      cases h1'
      rw [cells_unique h2 h2']
    · obtain rfl : lo = i := by omega
      rw [d.hnode] at h1
      rw [d.hnode'] at h1'
      cases h1
      cases h1'
      obtain ⟨a, b, u, u', rfl, rfl, h5, h6, h7⟩ :=
        cells_differ d.hclen d.hcell d.hcell' d.hcother h2 h2'
      exact ⟨u, u', h6, h7, fun path s s' h => .cell _ _ _ _ h5 h⟩
  | .children n lo hi cs, .children n' lo' hi' cs', h, hf, hf' => by
    simp only [Like, SNode.bare, SNode.children.injEq] at h
    obtain ⟨rfl, rfl, rfl, h⟩ := h
    simp only [Fills] at hf hf'
    obtain ⟨h1, h2⟩ := likes_differ d h hf hf'
    simp only [SNode.lo, SNode.hi]
    refine ⟨fun hi => by rw [h1 hi], fun hi => ?_⟩
    obtain ⟨a, b, t, t', rfl, rfl, u, u', h3, h4, h5⟩ := h2 hi
    exact ⟨u, u', h3, h4, fun path s s' h => .child _ _ _ _ _ (h5 path s s' h)⟩
theorem likes_differ {g : Grammar} {i j : Nat} {c c' : Row} (d : OneCell row row' i j c c') :
    ∀ {cs cs' : List SNode} {lo hi : Nat}, bareAll cs = bareAll cs' →
      FillsList (ParsesTo g) row lo hi cs → FillsList (ParsesTo g) row' lo hi cs' →
      (¬ (lo ≤ i ∧ i < hi) → cs = cs') ∧
      (lo ≤ i ∧ i < hi → ∃ a b t t', cs = a ++ t :: b ∧ cs' = a ++ t' :: b ∧
        CellDiffers g i j c c' t t')
  | [], [], lo, hi, _, hf, _ => by
    simp only [FillsList] at hf
    exact ⟨fun _ => rfl, fun h => by omega⟩
  | [], _ :: _, _, _, h, _, _ => by simp only [bareAll] at h; cases h
  | _ :: _, [], _, _, h, _, _ => by simp only [bareAll] at h; cases h
  | t :: ts, t' :: ts', lo, hi, h, hf, hf' => by
    simp only [bareAll, List.cons.injEq] at h
    simp only [FillsList] at hf hf'
    have hl : Like t t' := h.1
    obtain ⟨rfl, hf1, hf2⟩ := hf
    obtain ⟨-, hf1', hf2'⟩ := hf'
    rw [← hl.hi] at hf2'
    have ht := like_differ d hl hf1 hf1'
    have hts := likes_differ d h.2 hf2 hf2'
    have hle := hf1.le
    have hle2 := hf2.le
    refine ⟨fun hi => ?_, fun hi => ?_⟩
    · rw [ht.1 (by omega), hts.1 (by omega)]
    · by_cases hh : i < t.hi
      · rw [hts.1 (by omega)]
        exact ⟨[], ts', t, t', rfl, rfl, ht.2 (by omega)⟩
      · obtain ⟨a, b, u, u', rfl, rfl, h3⟩ := hts.2 (by omega)
        rw [ht.1 (by omega)]
        exact ⟨t' :: a, b, u, u', rfl, rfl, h3⟩
end

theorem parsesTo_parse {g : Grammar} (hg : g.Good) {r : Row} (hw : rowWf r = true) {t : SNode} :
    ParsesTo g r t ↔ g.parse r = .ok t := by
  obtain ⟨t', ht', -⟩ := parse_ok hg hw
  refine ⟨fun h => ?_, fun h => ⟨_, h⟩⟩
  rw [h.unique ⟨_, ht'⟩, ht']

theorem replaced_tree {g : Grammar} (hg : g.Good) {root root' old new : Row} {p : RowIndices}
    (h : ReplacedAt root p old new root') (hw : rowWf root = true) (hw' : rowWf root' = true) :
    ∃ t t' s s', g.parse root = .ok t ∧ g.parse root' = .ok t' ∧ g.parse old = .ok s ∧
      g.parse new = .ok s' ∧ TreeReplaced p s s' t t' := by
  induction h with
  | here old new =>
    obtain ⟨t, ht, -⟩ := parse_ok hg hw
    obtain ⟨t', ht', -⟩ := parse_ok hg hw'
    exact ⟨t, t', t, t', ht, ht', ht, ht', .here _ _⟩
  | @under r r' i j p old new v cells cells' w c c' h1 h2 h3 h4 h5 h6 h7 h8 h9 ih =>
    have hcw : rowWf c = true :=
      (wf_container.1 (rowWf_get hw h2)).2 c (List.mem_of_getElem? h6)
    have hcw' : rowWf c' = true :=
      (wf_container.1 (rowWf_get hw' h3)).2 c' (List.mem_of_getElem? h7)
    obtain ⟨u, u', s, s', hu, hu', hs, hs', hrep⟩ := ih hcw hcw'
    obtain ⟨t, ht, hf⟩ := parse_ok hg hw
    obtain ⟨t', ht', hf'⟩ := parse_ok hg hw'
    let d : OneCell r r' i j c c' := ⟨v, cells, cells', w, h1, h2, h3, h4, h5, h6, h7, h8⟩
    have hlike : Like t t' := by
      have e1 := parseFuel_eq hg hw (f := rowWeight r + rowWeight r' + 1) (by omega)
      have e2 := parseFuel_eq hg hw' (f := rowWeight r + rowWeight r' + 1) (by omega)
      exact parse_like d.same g _ t t' (by rw [e1, ht]) (by rw [e2, ht'])
    have hi := (List.getElem?_eq_some_iff.1 h2).1
    obtain ⟨v, v', hv, hv', hall⟩ := (like_differ d hlike hf.fills hf'.fills).2
      ⟨by rw [hf.lo_eq]; omega, by rw [hf.hi_eq]; omega⟩
    rw [parsesTo_parse hg hcw] at hv
    rw [parsesTo_parse hg hcw'] at hv'
    rw [hv] at hu
    cases hu
    rw [hv'] at hu'
    cases hu'
    exact ⟨t, t', s, s', ht, ht', hs, hs', hall _ _ _ hrep⟩

end Aftermath
