import Verif.Proof.Subst
import Verif.Props.NotationConverse

/-! # C110: a formula in brackets in the place of a variable -/

namespace Aftermath

/-- **C110**, the notation: if the variables in a way to write a formula are replaced by ways to write
other formulas, in brackets, then this is a way to write the formula with these variables replaced. -/
theorem C110_written {x : Xid} (hx : x.Usual) {σ : Char → Option Row} {τ : Char → Option Formula}
    (h : Replaces x σ τ) {e : Formula} {row : Row} (he : e.Writes x 0 0 row)
    (ha : e.Alone fun c => (τ c).isSome = true) :
    (e.subst τ).Writes x 0 0 (substRow σ row) :=
  writes_subst hx h he ha

/-- **C110.** A row means a formula. Some characters in it, which stand for variables of their own, are
replaced by rows in brackets, wherever they are, each by a row that means some formula. Then the row
means the formula with these variables replaced by these formulas, and nothing else, and it is read
without errors. -/
theorem C110 (x : Xid) (hx : x.Usual) :
    ∃ g m, createParser x = .ok (g, m) ∧ ∀ (row : Row) (e : Formula) (t : SNode)
      (σ : Char → Option Row) (τ : Char → Option Formula),
      rowWf row = true → PlainRow row → g.parse row = .ok t → Conveys m t e →
      e.Alone (fun c => (τ c).isSome = true) → (∀ c, σ c = none ↔ τ c = none) →
      (∀ c q f, σ c = some q → τ c = some f → x.start c = true ∧ c ≠ '\\' ∧
        rowWf q = true ∧ PlainRow q ∧ ∃ t', g.parse q = .ok t' ∧ Conveys m t' f) →
      ∃ t', g.parse (substRow σ row) = .ok t' ∧ Conveys m t' (e.subst τ) ∧ ErrorFree g t' ∧
        ∀ e', Conveys m t' e' → e' = e.subst τ := by
  obtain ⟨g, m, h, hp⟩ := C78 x hx
  obtain ⟨g', m', h', hp'⟩ := C69 x hx
  rw [h] at h'
  cases h'
  have S := createParser_std hx.toLetters h
  have back : ∀ {row t e}, rowWf row = true → PlainRow row → g.parse row = .ok t → Conveys m t e →
      e.Writes x 0 0 row := by
    intro row t e hw hpl ht hc
    obtain ⟨t', ht', -, h1⟩ := hp row hw hpl
    rw [ht] at ht'
    cases ht'
    exact (h1 e).1 hc
  refine ⟨g, m, h, fun row e t σ τ hw hpl ht hc ha hn hs => ?_⟩
  have hr : Replaces x σ τ := by
    refine ⟨fun c hc => ?_, hn, fun c q f hq hf => ?_⟩
    · cases hq : σ c with
      | none => rw [hq] at hc; cases hc
      | some q =>
        cases hf : τ c with
        | none => rw [(hn c).2 hf] at hq; cases hq
        | some f => exact ⟨(hs c q f hq hf).1, (hs c q f hq hf).2.1⟩
    · obtain ⟨-, -, h1, h2, t', h3, h4⟩ := hs c q f hq hf
      exact back h1 h2 h3 h4
  obtain ⟨t', h1, h2, h3⟩ := hp' _ _ (C110_written hx hr (back hw hpl ht hc) ha)
  exact ⟨t', h1, h2, conveys_errorFree S h2, h3⟩

/-- **C110** on the page: what is shown for it has no marks for errors or for something missing. -/
theorem C110_shown {x : Xid} (hx : x.Usual) {σ : Char → Option Row} {τ : Char → Option Formula}
    (h : Replaces x σ τ) {e : Formula} {row : Row} (he : e.Writes x 0 0 row)
    (ha : e.Alone fun c => (τ c).isSome = true) {el : RElem} (hs : Shown x (substRow σ row) el)
    (hpl : PlainRow (substRow σ row)) :
    eltsCount (fun _ marked => marked) el.elements = 0 ∧
      eltsCount (fun tag _ => tag == .other "merror".toList) el.elements = 0 :=
  (C78_shown hx hs hpl).2 ⟨_, C110_written hx h he ha⟩

/-! ## Examples -/

private abbrev v (c : Char) : Formula := .variable [c]
private abbrev inf (o : BinOp) (a b : Formula) : Formula := .bin o 0 Fin.elim0 Fin.elim0 a b

/-- `c+b` for `a`, and `a/2` for `b` -/
private def rows (c : Char) : Option Row :=
  if c = 'a' then some (rowOf "c+b") else if c = 'b' then some (rowOf "a/2") else none
private def formulas (c : Char) : Option Formula :=
  if c = 'a' then some (inf .add (v 'c') (v 'b'))
  else if c = 'b' then some (inf .divide (v 'a') (.number ['2'])) else none

/-- All occurrences are replaced at once, in cells as well. -/
example : substRow rows (rowOf "a*b-" ++ .container .fraction [rowOf "a", rowOf "cd"] 1 :: rowOf "(a)") =
    rowOf "(c+b)*(a/2)-" ++ .container .fraction [rowOf "(c+b)", rowOf "cd"] 1 :: rowOf "((c+b))" := by
  decide +kernel

private theorem replaces : Replaces letterXid rows formulas := by
  have hv : ∀ {c : Char} {l r}, letterXid.start c = true → (v c).Writes letterXid l r [sy c] :=
    fun h => .variable (s := [_]) ⟨_, [], rfl, h, nofun, by simp [List.cons_prefix_cons]⟩
  refine ⟨fun c hc => ?_, fun c => ?_, fun c q f hq hf => ?_⟩
  · unfold rows at hc
    split at hc
    · subst c; exact ⟨by decide, by decide⟩
    · split at hc
      · subst c; exact ⟨by decide, by decide⟩
      · cases hc
  · unfold rows formulas
    split
    · simp
    · split <;> simp
  · unfold rows at hq
    unfold formulas at hf
    split at hq
    · rename_i h
      rw [if_pos h] at hf
      cases hq; cases hf
      exact .bin (rows := Fin.elim0) (p := [sy 'c']) (w := [sy '+']) (q := [sy 'b']) (by decide) (by decide) (hv (by decide)) (.sign 0) nofun
        (hv (by decide))
    · rename_i h
      rw [if_neg h] at hf
      split at hq
      · rename_i h
        rw [if_pos h] at hf
        cases hq; cases hf
        exact .bin (rows := Fin.elim0) (p := [sy 'a']) (w := [sy '/']) (q := [sy '2']) (by decide) (by decide) (hv (by decide)) (.sign 0) nofun
          (.number (s := ['2']) (.whole ⟨by decide, by decide⟩))
      · cases hq

/-- `a*b` becomes `(c+b)*(a/2)`. -/
example : (inf .multiply (inf .add (v 'c') (v 'b')) (inf .divide (v 'a') (.number ['2']))).Writes
    letterXid 0 0 (rowOf "(c+b)*(a/2)") := by
  have hv : ∀ {c : Char} {l r}, letterXid.start c = true → (v c).Writes letterXid l r [sy c] :=
    fun h => .variable (s := [_]) ⟨_, [], rfl, h, nofun, by simp [List.cons_prefix_cons]⟩
  have h := C110_written letterXid_usual replaces (e := inf .multiply (v 'a') (v 'b')) (row := rowOf "a*b")
    (.bin (rows := Fin.elim0) (p := [sy 'a']) (w := [sy '*']) (q := [sy 'b']) (by decide) (by decide) (hv (by decide)) (.sign 0) nofun (hv (by decide)))
    ⟨nofun, .inl ⟨_, rfl⟩, .inl ⟨_, rfl⟩⟩
  have h1 : substRow rows (rowOf "a*b") = rowOf "(c+b)*(a/2)" := by decide +kernel
  rw [h1] at h
  have h2 : ∀ (f : Fin 0 → Formula), f = Fin.elim0 := fun f => funext nofun
  simpa only [Formula.subst, formulas, if_true, Option.getD_some, h2, if_neg (by decide : ¬ 'b' = 'a')] using h

/-- Without brackets it would be another formula: `c+b*a/2`. -/
example : ¬ (inf .multiply (inf .add (v 'c') (v 'b')) (inf .divide (v 'a') (.number ['2']))).Writes
    letterXid 0 0 (rowOf "c+b*a/2") := by
  intro h
  have hv : ∀ {c : Char} {l r}, letterXid.start c = true → (v c).Writes letterXid l r [sy c] :=
    fun h => .variable (s := [_]) ⟨_, [], rfl, h, nofun, by simp [List.cons_prefix_cons]⟩
  have h' : (inf .add (v 'c') (inf .divide (inf .multiply (v 'b') (v 'a')) (.number ['2']))).Writes
      letterXid 0 0 (rowOf "c+b*a/2") :=
    .bin (rows := Fin.elim0) (p := [sy 'c']) (w := [sy '+']) (q := rowOf "b*a/2") (by decide) (by decide)
      (hv (by decide)) (.sign 0) nofun
      (.bin (rows := Fin.elim0) (p := rowOf "b*a") (w := [sy '/']) (q := [sy '2']) (by decide) (by decide)
        (.bin (rows := Fin.elim0) (p := [sy 'b']) (w := [sy '*']) (q := [sy 'a']) (by decide) (by decide)
          (hv (by decide)) (.sign 0) nofun (hv (by decide)))
        (.sign 0) nofun (.number (s := ['2']) (.whole ⟨by decide, by decide⟩)))
  cases C69_unambiguous letterXid letterXid_usual _ _ _ h h'

end Aftermath
