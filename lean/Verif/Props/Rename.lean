import Verif.Proof.RenamePage
import Verif.Props.BracketsPage

/-! # Property theorems C99: which letters and digits are used does not matter for the structure -/

namespace Aftermath

variable {x : Xid} {g : Grammar} {m : NameMap} {φ : Char → Char}

/-- **C99** Characters in any row are replaced by others of the same sort. Then the syntax tree is the same
one with these characters replaced: the names of all nodes and their ranges stay. If the parser panics,
then it panics in the same way. -/
theorem C99 (hx : x.Letters) (hp : createParser x = .ok (g, m)) (h : Renaming x φ) (row : Row) :
    (∀ t, g.parse row = .ok t → g.parse (renameRow φ row) = .ok (t.rename φ)) ∧
    (∀ e, g.parse row = .error e → g.parse (renameRow φ row) = .error e) := by
  have := parse_rename ((createParser_std hx hp).keeps h) row
  constructor
  · intro t ht
    rwa [ht, MRen] at this
  · intro e he
    rwa [he, MRen] at this

/-- **C99** on the page: the formula is shown exactly when it was, and what is shown is the same with these
characters replaced. (The characters drawn for empty rows and missing operands stay.) -/
theorem C99_page (h : Renaming x φ) (h1 : φ '⬚' = '⬚') (h2 : φ ' ' = ' ') (row : Row) :
    (∀ e, Shown x row e → ∃ e', Shown x (renameRow φ row) e' ∧
      wrapInMRow e'.elements = (wrapInMRow e.elements).rename φ) ∧
    (∀ e', Shown x (renameRow φ row) e' → ∃ e, Shown x row e ∧
      wrapInMRow e'.elements = (wrapInMRow e.elements).rename φ) := by
  constructor
  · rintro e ⟨hx, hw, g, m, R, t, hs, ht, he⟩
    have h3 := (C99 hx hs.parser h row).1 t ht
    have h4 := render_rename (φ := φ) R t none .none
    change renderAll R t = _ at he
    change MRen _ (renderAll R t) (renderAll R _) at h4
    rw [he, MRen] at h4
    refine ⟨_, ⟨hx, (renameRow_wf row).trans hw, g, m, R, _, hs, h3, h4⟩, ?_⟩
    rw [elements_rename h1 h2, wrapInMRow_rename]
  · rintro e' ⟨hx, hw, g, m, R, t', hs, ht', he'⟩
    have hw' := (renameRow_wf (φ := φ) row).symm.trans hw
    obtain ⟨t, ht, -⟩ := parse_ok (hs.fits hx).1 hw'
    have h3 := (C99 hx hs.parser h row).1 t ht
    rw [ht'] at h3
    cases h3
    have h4 := render_rename (φ := φ) R t none .none
    change MRen _ (renderAll R t) (renderAll R _) at h4
    cases he : renderAll R t with
    | error p =>
      rw [he, MRen, he'] at h4
      cases h4
    | ok e =>
      rw [he, MRen, he'] at h4
      cases h4
      refine ⟨e, ⟨hx, hw', g, m, R, t, hs, ht, he⟩, ?_⟩
      rw [elements_rename h1 h2, wrapInMRow_rename]

/-- Digits are replaced by any digits, and Latin letters other than those of `limsup` and `liminf` by any
such letters; everything else stays. This is such a replacement. -/
theorem C99_sorts (hx : x.Usual) (hd : ∀ c : Char, c.isDigit = true → x.continue_ c = true)
    (h : ∀ c : Char, φ c = c ∨ (c.isDigit = true ∧ (φ c).isDigit = true) ∨
      ((c.isAlpha = true ∧ c ∉ "limsupnf".toList) ∧ ((φ c).isAlpha = true ∧ φ c ∉ "limsupnf".toList))) :
    Renaming x φ ∧ φ '⬚' = '⬚' ∧ φ ' ' = ' ' := by
  have dig : ∀ c : Char, c.isDigit = true ↔ ('0' ≤ c ∧ c ≤ '9') := by
    intro c
    simp only [Char.isDigit, Bool.and_eq_true, decide_eq_true_eq, Char.le_def]
  have alpha : ∀ c : Char, c.isAlpha = true → ¬ ('0' ≤ c ∧ c ≤ '9') := by
    intro c hc h'
    have := (dig c).2 h'
    simp only [Char.isAlpha, Char.isUpper, Char.isLower, Char.isDigit, Bool.and_eq_true, Bool.or_eq_true,
      decide_eq_true_eq, UInt32.le_iff_toNat_le, ge_iff_le] at this hc
    have e1 : '0'.val.toNat = 48 := rfl
    have e2 : '9'.val.toNat = 57 := rfl
    have e3 : 'A'.val.toNat = 65 := rfl
    have e4 : 'Z'.val.toNat = 90 := rfl
    have e5 : 'a'.val.toNat = 97 := rfl
    have e6 : 'z'.val.toNat = 122 := rfl
    omega
  have tok : ∀ d ∈ tokenChars, d.isDigit = false ∧ (d.isAlpha = true → d ∈ "limsupnf".toList) := by
    decide +kernel
  have fix : ∀ c : Char, c.isDigit = false → c.isAlpha = false → φ c = c := by
    intro c h1 h2
    rcases h c with h | ⟨h, -⟩ | ⟨⟨h, -⟩, -⟩
    · exact h
    · exact absurd h (by rw [h1]; simp)
    · exact absurd h (by rw [h2]; simp)
  refine ⟨⟨?_, ?_, ?_, ?_⟩, fix _ (by decide) (by decide), fix _ (by decide) (by decide)⟩
  · intro c
    rcases h c with h | ⟨h1, h2⟩ | ⟨⟨h1, -⟩, h2, -⟩
    · rw [h]
    · rw [hx.digits _ h1, hx.digits _ h2]
    · rw [(hx.letters _ h1).1, (hx.letters _ h2).1]
  · intro c
    rcases h c with h | ⟨h1, h2⟩ | ⟨⟨h1, -⟩, h2, -⟩
    · rw [h]
    · rw [hd _ h1, hd _ h2]
    · rw [(hx.letters _ h1).2, (hx.letters _ h2).2]
  · intro c
    rcases h c with h | ⟨h1, h2⟩ | ⟨⟨h1, -⟩, h2, -⟩
    · rw [h]
    · exact ⟨fun _ => (dig _).1 h1, fun _ => (dig _).1 h2⟩
    · exact ⟨fun h => absurd h (alpha _ h2), fun h => absurd h (alpha _ h1)⟩
  · intro d hmem c
    obtain ⟨t1, t2⟩ := tok d hmem
    rcases h c with h | ⟨h1, h2⟩ | ⟨⟨h1, h1'⟩, h2, h2'⟩
    · rw [h]
    · constructor
      · rintro rfl
        rw [h2] at t1
        cases t1
      · rintro rfl
        rw [h1] at t1
        cases t1
    · constructor
      · rintro rfl
        exact absurd (t2 h2) h2'
      · rintro rfl
        exact absurd (t2 h1) h1'

/-- Any letters and digits: `2x+10` becomes `7y+77`. -/
example : parsesAs (symbols "2x+10") "(Arithmetic::Add (Error::MissingOperator (Arithmetic::Number \"2\") (Error::MissingToken) (Core::Variable \"x\")) (BuiltIn::Operator \"+\") (Arithmetic::Number \"10\"))" = true := by
  decide +kernel
example : parsesAs (symbols "7y+77") "(Arithmetic::Add (Error::MissingOperator (Arithmetic::Number \"7\") (Error::MissingToken) (Core::Variable \"y\")) (BuiltIn::Operator \"+\") (Arithmetic::Number \"77\"))" = true := by
  decide +kernel

/-- The letters of `lim` have a meaning of their own: with another letter it is a variable. -/
example : parsesAs (symbols "lim x") "(Calculus::Lim (BuiltIn::Whitespaces (BuiltIn::Operator \"lim\") (BuiltIn::Whitespace \" \")) (Core::Variable \"x\"))" = true := by
  decide +kernel
example : parsesAs (symbols "zim x") "(Error::MissingOperator (BuiltIn::Whitespaces (Core::Variable \"zim\") (BuiltIn::Whitespace \" \")) (Error::MissingToken) (Core::Variable \"x\"))" = true := by
  decide +kernel

/-- All digits become `7`, and `x` becomes `y`. -/
example : renameRow (fun c => if c.isDigit then '7' else if c = 'x' then 'y' else c) (symbols "2x+10") =
    symbols "7y+77" := by decide +kernel
example (hx : x.Usual) (hd : ∀ c : Char, c.isDigit = true → x.continue_ c = true) :
    Renaming x (fun c => if c.isDigit then '7' else if c = 'x' then 'y' else c) := by
  refine (C99_sorts hx hd fun c => ?_).1
  by_cases h : c.isDigit = true
  · exact .inr (.inl ⟨h, by simp [h]⟩)
  · by_cases h' : c = 'x'
    · subst h'
      exact .inr (.inr (by decide))
    · exact .inl (by simp [h, h'])

end Aftermath
