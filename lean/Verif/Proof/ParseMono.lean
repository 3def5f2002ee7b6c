import Verif.Proof.Fills

/-! # More recursion depth never changes a result of the parser -/

namespace Aftermath

/-- `y` has the same result as `x` wherever `x` has one. -/
def MLe {α : Type} (x y : M α) : Prop := ∀ r, x = .ok r → y = .ok r

theorem MLe.refl {α : Type} (x : M α) : MLe x x := fun _ h => h

theorem MLe.bind {α β : Type} {x y : M α} {f g : α → M β} (h : MLe x y)
    (hf : ∀ a, MLe (f a) (g a)) : MLe (x >>= f) (y >>= g) := by
  intro r hr
  obtain ⟨a, ha, hb⟩ := M.bind_eq_ok.1 hr
  exact M.bind_eq_ok.2 ⟨a, h a ha, hf a r hb⟩

theorem MLe.error {α : Type} (e : Panic) (y : M α) : MLe (.error e) y := fun _ h => by cases h

theorem MLe.ite {α : Type} {p : Prop} [Decidable p] {x y x' y' : M α} (h : MLe x y)
    (h' : MLe x' y') : MLe (if p then x else x') (if p then y else y') := by
  split
  · exact h
  · exact h'

/-- `c2` has the same results as `c1` wherever `c1` has one. -/
def Rec.Le (c1 c2 : Rec) : Prop := ∀ row pos min e, MLe (c1 row pos min e) (c2 row pos min e)

variable {c1 c2 : Rec}

theorem parseWhole_mono (h : c1.Le c2) (row : Row) :
    MLe (parseWhole c1 row) (parseWhole c2 row) := by
  unfold parseWhole
  exact MLe.bind (h _ _ _ _) fun _ => MLe.refl _

theorem parseCells_mono (h : c1.Le c2) (cells : List Row) :
    MLe (parseCells c1 cells) (parseCells c2 cells) := by
  induction cells with
  | nil => exact MLe.refl _
  | cons r rs ih =>
    unfold parseCells
    exact MLe.bind (parseWhole_mono h r) fun _ => MLe.bind ih fun _ => MLe.refl _

theorem parseContainer_mono (h : c1.Le c2) (v : Variant) (row : Row) (pos : Nat) :
    MLe (parseContainer c1 v row pos) (parseContainer c2 v row pos) := by
  unfold parseContainer
  cases row[pos]? with
  | none => exact MLe.refl _
  | some n =>
    cases n with
    | symbol s => exact MLe.refl _
    | container v' cells w =>
      exact MLe.ite (MLe.bind (parseCells_mono h _) fun _ => MLe.refl _) (MLe.refl _)

theorem parseBrackets_mono (h : c1.Le c2) (n : Nat) (o c : Str) (row : Row) (pos : Nat) :
    MLe (parseBrackets c1 n o c row pos) (parseBrackets c2 n o c row pos) := by
  unfold parseBrackets
  cases selectSym (fun s => s == o) row pos with
  | none => exact MLe.refl _
  | some x => exact MLe.bind (h _ _ _ _) fun _ => MLe.refl _

theorem tokenParse_mono (h : c1.Le c2) (g : Grammar) (tp : TokenParser) (row : Row) (pos : Nat) :
    MLe (tokenParse c1 g tp row pos) (tokenParse c2 g tp row pos) := by
  cases tp with
  | brackets n o c => exact parseBrackets_mono h n o c row pos
  | container v => exact parseContainer_mono h v row pos
  | _ => exact MLe.refl _

theorem parseScript_mono (h : c1.Le c2) (g : Grammar) (v : Variant) (row : Row) (pos : Nat) :
    MLe (parseScript c1 g v row pos) (parseScript c2 g v row pos) := by
  unfold parseScript
  exact MLe.bind (parseContainer_mono h _ _ _) fun _ => MLe.refl _

theorem parseScripts_mono (h : c1.Le c2) (g : Grammar) (row : Row) (n : Nat) :
    ∀ (t : SNode) (pos : Nat),
      MLe (parseScripts c1 g row n t pos) (parseScripts c2 g row n t pos) := by
  induction n with
  | zero => intro t pos; exact MLe.refl _
  | succ n ih =>
    intro t pos
    unfold parseScripts
    refine MLe.bind (parseScript_mono h _ _ _ _) fun a => ?_
    cases a with
    | some x => exact MLe.bind (MLe.refl _) fun _ => ih _ _
    | none =>
      refine MLe.bind (parseScript_mono h _ _ _ _) fun a => ?_
      cases a with
      | some x => exact MLe.bind (MLe.refl _) fun _ => ih _ _
      | none => exact MLe.refl _

theorem ruleParse_mono (h : c1.Le c2) (g : Grammar) (r : Rule) (row : Row) (pos : Nat) :
    MLe (ruleParse c1 g r row pos) (ruleParse c2 g r row pos) := by
  unfold ruleParse
  refine MLe.bind (MLe.refl _) fun a => ?_
  refine MLe.bind (tokenParse_mono h _ _ _ _) fun b => ?_
  cases b with
  | none => exact MLe.refl _
  | some x =>
    refine MLe.bind (MLe.refl _) fun _ => MLe.bind (MLe.refl _) fun _ =>
      MLe.bind (MLe.refl _) fun _ => MLe.ite (MLe.bind (parseScripts_mono h _ _ _ _ _) fun _ =>
        MLe.refl _) (MLe.refl _)

theorem parseIter_mono (h : c1.Le c2) (g : Grammar) (row : Row) (pos : Nat) (rs : List Rule) :
    MLe (parseIter c1 g row pos rs) (parseIter c2 g row pos rs) := by
  induction rs with
  | nil => exact MLe.refl _
  | cons r rs ih =>
    unfold parseIter
    refine MLe.bind (ruleParse_mono h _ _ _ _) fun a => ?_
    cases a with
    | some x => exact MLe.refl _
    | none => exact ih

theorem canParse_mono (h : c1.Le c2) (g : Grammar) (row : Row) (pos : Nat) (rs : List Rule) :
    MLe (canParse c1 g row pos rs) (canParse c2 g row pos rs) := by
  unfold canParse
  exact MLe.bind (parseIter_mono h _ _ _ _) fun _ => MLe.refl _

theorem canParseEither_mono (h : c1.Le c2) (g : Grammar) (row : Row) (pos : Nat)
    (rs rs' : List Rule) :
    MLe (canParseEither c1 g row pos rs rs') (canParseEither c2 g row pos rs rs') := by
  unfold canParseEither
  exact MLe.bind (canParse_mono h _ _ _ _) fun a => MLe.ite (MLe.refl _) (canParse_mono h _ _ _ _)

theorem unknownStops_mono (h : c1.Le c2) (g : Grammar) (row : Row) (pos : Nat) (e : Ending) :
    MLe (unknownStops c1 g row pos e) (unknownStops c2 g row pos e) := by
  unfold unknownStops
  refine MLe.ite (MLe.refl _) ?_
  refine MLe.bind (canParse_mono h _ _ _ _) fun a => MLe.ite (MLe.refl _) ?_
  refine MLe.bind (canParse_mono h _ _ _ _) fun a => MLe.ite (MLe.refl _) ?_
  exact MLe.bind (canParse_mono h _ _ _ _) fun a => MLe.ite (MLe.refl _) (canParse_mono h _ _ _ _)

theorem unknownLoop_mono (h : c1.Le c2) (g : Grammar) (row : Row) (e : Ending) (n : Nat) :
    ∀ (t : SNode) (pos : Nat),
      MLe (unknownLoop c1 g row e n t pos) (unknownLoop c2 g row e n t pos) := by
  induction n with
  | zero => intro t pos; exact MLe.refl _
  | succ n ih =>
    intro t pos
    unfold unknownLoop
    exact MLe.bind (unknownStops_mono h _ _ _ _) fun a => MLe.ite (MLe.refl _)
      (MLe.bind (MLe.refl _) fun _ => MLe.bind (MLe.refl _) fun _ => ih _ _)

theorem parseUnknown_mono (h : c1.Le c2) (g : Grammar) (row : Row) (e : Ending) (pos : Nat) :
    MLe (parseUnknown c1 g row e pos) (parseUnknown c2 g row e pos) := by
  unfold parseUnknown
  exact MLe.bind (MLe.refl _) fun _ => unknownLoop_mono h _ _ _ _ _ _

theorem prattStart_mono (h : c1.Le c2) (g : Grammar) (row : Row) (e : Ending) (pos : Nat) :
    MLe (prattStart c1 g row e pos) (prattStart c2 g row e pos) := by
  unfold prattStart
  refine MLe.ite (MLe.refl _) (MLe.bind (parseIter_mono h _ _ _ _) fun a => ?_)
  cases a with
  | some x => exact MLe.bind (h _ _ _ _) fun _ => MLe.refl _
  | none =>
    refine MLe.bind (parseIter_mono h _ _ _ _) fun a => ?_
    cases a with
    | some x => exact MLe.refl _
    | none =>
      refine MLe.bind (canParseEither_mono h _ _ _ _ _) fun a => ?_
      exact MLe.ite (MLe.refl _) (MLe.ite (MLe.refl _)
        (MLe.bind (parseUnknown_mono h _ _ _ _) fun _ => MLe.refl _))

theorem prattLoop_mono (h : c1.Le c2) (g : Grammar) (row : Row) (min : Power) (e : Ending)
    (n : Nat) : ∀ (t : SNode) (pos : Nat),
      MLe (prattLoop c1 g row min e n t pos) (prattLoop c2 g row min e n t pos) := by
  induction n with
  | zero => intro t pos; exact MLe.refl _
  | succ n ih =>
    intro t pos
    unfold prattLoop
    refine MLe.ite (MLe.refl _) (MLe.bind (parseIter_mono h _ _ _ _) fun a => ?_)
    cases a with
    | some x =>
      refine MLe.ite (MLe.refl _) (MLe.bind (h _ _ _ _) fun a => MLe.bind (MLe.refl _) fun _ => ?_)
      obtain ⟨s, p⟩ := a
      cases s with
      | expression _ => exact ih _ _
      | stop _ => exact MLe.refl _
    | none =>
      refine MLe.bind (parseIter_mono h _ _ _ _) fun a => ?_
      cases a with
      | some x => exact MLe.ite (MLe.refl _) (MLe.bind (MLe.refl _) fun _ => ih _ _)
      | none =>
        refine MLe.bind (canParseEither_mono h _ _ _ _ _) fun a => ?_
        refine MLe.ite (MLe.ite (MLe.refl _) (MLe.bind (h _ _ _ _) fun a =>
          MLe.bind (MLe.refl _) fun _ => ?_)) (MLe.ite (MLe.refl _)
          (MLe.bind (parseUnknown_mono h _ _ _ _) fun _ => MLe.bind (MLe.refl _) fun _ => ih _ _))
        obtain ⟨s, p⟩ := a
        cases s with
        | expression _ => exact ih _ _
        | stop _ => exact MLe.refl _

theorem prattBody_mono (h : c1.Le c2) (g : Grammar) : Rec.Le (prattBody c1 g) (prattBody c2 g) := by
  intro row pos min e
  unfold prattBody
  refine MLe.bind (prattStart_mono h _ _ _ _) fun a => ?_
  obtain ⟨s, p⟩ := a
  cases s with
  | finished t => exact MLe.refl _
  | left t => exact prattLoop_mono h _ _ _ _ _ _ _

theorem pratt_mono_succ (g : Grammar) (f : Nat) : (pratt g f).Le (pratt g (f + 1)) := by
  induction f with
  | zero => intro row pos min e; exact MLe.error _ _
  | succ f ih => exact prattBody_mono ih g

theorem pratt_mono (g : Grammar) {f f' : Nat} (h : f ≤ f') : (pratt g f).Le (pratt g f') := by
  induction h with
  | refl => intro row pos min e; exact MLe.refl _
  | step _ ih => intro row pos min e r hr; exact pratt_mono_succ g _ row pos min e r (ih _ _ _ _ r hr)

end Aftermath
