import Verif.Proof.OneToken

/-! # C87: which formulas are a single name, number or string -/

namespace Aftermath

variable {x : Xid} {g : Grammar} {m : NameMap}

/-- The tree of the row is one leaf with this name and these texts. -/
def IsLeafOf (g : Grammar) (m : NameMap) (path : String × String) (row : Row) (ss : List Str) : Prop :=
  ∃ n lo hi ty, IsNamed m path n ∧ g.parse row = .ok (.leaf n lo hi ty ss)

private theorem isLeafOf_iff (S : Std x g m) {path : String × String} {k : Nat}
    (hk : (path, k) ∈ shippedNumbers) {row : Row} {ss : List Str} :
    IsLeafOf g m path row ss ↔ ∃ lo hi ty, g.parse row = .ok (.leaf k lo hi ty ss) := by
  have hn := S.numbers _ hk
  constructor
  · rintro ⟨n, lo, hi, ty, h1, h2⟩
    rw [IsNamed, hn] at h1
    cases h1
    exact ⟨lo, hi, ty, h2⟩
  · rintro ⟨lo, hi, ty, h⟩
    exact ⟨k, lo, hi, ty, hn, h⟩

/-- **C87.** A formula is read as one variable exactly if it is nothing but symbols, the first begins
with a letter, the other characters can be part of a name, and it does not begin with `lim`. -/
theorem C87_name (hx : x.Usual) (h : createParser x = .ok (g, m)) (row : Row) (ss : List Str) :
    IsLeafOf g m ("Core", "Variable") row ss ↔ row = ss.map Node.symbol ∧ NameText x ss := by
  have S := createParser_std hx.letters h
  rw [isLeafOf_iff S (k := 12) (by decide +kernel)]
  constructor
  · rintro ⟨lo, hi, ty, h⟩
    exact name_inv S h
  · rintro ⟨rfl, h⟩
    exact ⟨_, _, _, name_parse S hx h⟩

/-- **C87.** A formula is read as one number exactly if it is at least one symbol of digits, with or
without a decimal point and at least one symbol of digits. -/
theorem C87_number (hx : x.Usual) (h : createParser x = .ok (g, m)) (row : Row) (ss : List Str) :
    IsLeafOf g m ("Arithmetic", "Number") row ss ↔ row = ss.map Node.symbol ∧ NumberText ss := by
  have S := createParser_std hx.letters h
  rw [isLeafOf_iff S (k := 14) (by decide +kernel)]
  constructor
  · rintro ⟨lo, hi, ty, h⟩
    exact number_inv S h
  · rintro ⟨rfl, h⟩
    exact ⟨_, _, _, number_parse S hx h⟩

/-- **C87.** A formula is read as one string exactly if it is symbols between quotes, where each quote
and backslash in between comes after a backslash. -/
theorem C87_string (hx : x.Usual) (h : createParser x = .ok (g, m)) (row : Row) (ss : List Str) :
    IsLeafOf g m ("String", "String") row ss ↔ row = ss.map Node.symbol ∧ StringText ss := by
  have S := createParser_std hx.letters h
  rw [isLeafOf_iff S (k := 41) (by decide +kernel)]
  constructor
  · rintro ⟨lo, hi, ty, h⟩
    exact string_inv S h
  · rintro ⟨rfl, h⟩
    exact ⟨_, _, _, string_parse S hx h⟩

/-- **C87.** A symbol without characters is read as
a number. -/
theorem C87_empty (hx : x.Usual) (h : createParser x = .ok (g, m)) :
    IsLeafOf g m ("Arithmetic", "Number") [.symbol []] [[]] :=
  (C87_number hx h _ _).2 ⟨rfl, .inl ⟨nofun, by simp⟩⟩

/-! ## Examples -/

/-- Letters, and an accent that can go on a name. -/
def accentXid : Xid := ⟨Char.isAlpha, fun c => c.isAlpha || c == '́'⟩

theorem accentXid_usual : accentXid.Usual :=
  ⟨fun c h => ⟨h, by simp [accentXid, h]⟩,
    fun c h => by
      cases ha : c.isAlpha with
      | false => exact ha
      | true => exact absurd ha (by
          simp only [Char.isDigit, Char.isAlpha, Char.isUpper, Char.isLower, Bool.and_eq_true,
            decide_eq_true_eq, Bool.or_eq_true, ge_iff_le, UInt32.le_iff_toNat_le] at h ⊢
          have e1 : '0'.val.toNat = 48 := rfl
          have e2 : '9'.val.toNat = 57 := rfl
          have e3 : 'A'.val.toNat = 65 := rfl
          have e4 : 'a'.val.toNat = 97 := rfl
          omega), by decide +kernel⟩

-- A letter with an accent is one symbol with two characters. It can also be alone in a name.
example : NameText accentXid [['e', '́'], ['́'], ['t']] :=
  ⟨⟨'e', ['́'], _, rfl, by decide, by decide, by decide⟩, by decide⟩
-- An accent cannot be at the beginning.
example : ¬ NameText accentXid [['́'], ['e']] := by
  rintro ⟨⟨c, cs, rest, h, h1, -⟩, -⟩
  cases h
  exact absurd h1 (by decide)
example : NumberText ["12".toList, ['.'], ['5'], "00".toList] :=
  .inr ⟨["12".toList], [['5'], "00".toList], rfl, ⟨by decide, by decide⟩, by decide, by decide⟩
example : StringText [['"'], ['\\'], ['"'], "ab".toList, ['"']] :=
  ⟨_, .escaped (.plain (by decide) (by decide) .nil), rfl⟩

end Aftermath
