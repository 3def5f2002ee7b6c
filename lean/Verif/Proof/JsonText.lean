import Mathlib.Data.List.Induction
import Mathlib.Tactic.IntervalCases
import Verif.Spec.JsonText

/-! # The reader accepts exactly the JSON texts -/

namespace Aftermath

/-! ## White space -/

theorem isJsonSpace_iff {c : Char} :
    isJsonSpace c = true ↔ c = ' ' ∨ c = '\t' ∨ c = '\n' ∨ c = '\r' := by
  simp only [isJsonSpace, Bool.or_eq_true, decide_eq_true_eq]
  tauto

theorem skipSpace_cons {c : Char} {cs : Str} (h : isJsonSpace c = false) :
    skipSpace (c :: cs) = c :: cs := by
  simp [skipSpace, h]

theorem skipSpace_blank {a : Str} (h : Blank a) (s : Str) : skipSpace (a ++ s) = skipSpace s := by
  induction a with
  | nil => rfl
  | cons c a ih =>
    have hc : isJsonSpace c = true := isJsonSpace_iff.2 (h c (by simp))
    rw [List.cons_append, skipSpace, if_pos hc, ih fun x hx => h x (by simp [hx])]

theorem skipSpace_split (s : Str) : ∃ a, Blank a ∧ s = a ++ skipSpace s := by
  induction s with
  | nil => exact ⟨[], by intro c hc; simp at hc, rfl⟩
  | cons c s ih =>
    by_cases hc : isJsonSpace c = true
    · obtain ⟨a, ha, hs⟩ := ih
      refine ⟨c :: a, ?_, ?_⟩
      · intro x hx
        rcases List.mem_cons.1 hx with rfl | hx
        · exact isJsonSpace_iff.1 hc
        · exact ha x hx
      · rw [skipSpace, if_pos hc, List.cons_append, ← hs]
    · refine ⟨[], by intro c hc; simp at hc, ?_⟩
      rw [skipSpace, if_neg hc, List.nil_append]

theorem Blank.nil : Blank [] := by intro c hc; simp at hc

theorem Blank.append {a b : Str} (ha : Blank a) (hb : Blank b) : Blank (a ++ b) := by
  intro c hc
  rcases List.mem_append.1 hc with h | h
  · exact ha c h
  · exact hb c h

theorem skipSpace_of_blank {a : Str} (h : Blank a) : skipSpace a = [] := by
  have := skipSpace_blank h []
  rwa [List.append_nil] at this

theorem blank_of_skipSpace {s : Str} (h : skipSpace s = []) : Blank s := by
  obtain ⟨a, ha, hs⟩ := skipSpace_split s
  rw [h, List.append_nil] at hs
  rw [hs]; exact ha

/-! ## Strings -/

theorem char_le {a b : Char} : a ≤ b ↔ a.toNat ≤ b.toNat := by
  rw [Char.le_def, UInt32.le_iff_toNat_le]; rfl

theorem hexVal_iff {c : Char} {n : Nat} : hexVal c = some n ↔ HexDigit c n := by
  constructor
  · intro h
    have hc := (Char.ofNat_toNat c).symm
    unfold hexVal at h
    split at h
    · rename_i hr
      rw [char_le, char_le] at hr
      obtain ⟨h1, h2⟩ := hr
      have h1 : 48 ≤ c.toNat := h1
      have h2 : c.toNat ≤ 57 := h2
      cases h
      generalize c.toNat = m at *
      interval_cases m <;> (subst hc; left; decide)
    · split at h
      · rename_i hr
        rw [char_le, char_le] at hr
        obtain ⟨h1, h2⟩ := hr
        have h1 : 97 ≤ c.toNat := h1
        have h2 : c.toNat ≤ 102 := h2
        cases h
        generalize c.toNat = m at *
        interval_cases m <;> (subst hc; left; decide)
      · split at h
        · rename_i hr
          rw [char_le, char_le] at hr
          obtain ⟨h1, h2⟩ := hr
          have h1 : 65 ≤ c.toNat := h1
          have h2 : c.toNat ≤ 70 := h2
          cases h
          generalize c.toNat = m at *
          interval_cases m <;> (subst hc; right; decide)
        · cases h
  · intro h
    have hn : n < 16 := by
      rcases h with h | h
      · exact (List.getElem?_eq_some_iff.1 h).1
      · exact (List.getElem?_eq_some_iff.1 h).1
    rcases h with h | h
    · interval_cases n <;> (simp at h; subst h; decide)
    · interval_cases n <;> (simp at h; subst h; decide)

theorem HexDigit.lt {c : Char} {n : Nat} (h : HexDigit c n) : n < 16 := by
  rcases h with h | h
  · exact (List.getElem?_eq_some_iff.1 h).1
  · exact (List.getElem?_eq_some_iff.1 h).1

theorem HexCode.length {u : Str} {n : Nat} (h : HexCode u n) : u.length = 4 := by
  obtain ⟨a, b, c, d, i, j, k, l, -, -, -, -, rfl, -⟩ := h
  rfl

theorem HexCode.lt {u : Str} {n : Nat} (h : HexCode u n) : n < 65536 := by
  obtain ⟨a, b, c, d, i, j, k, l, h1, h2, h3, h4, -, rfl⟩ := h
  have := h1.lt
  have := h2.lt
  have := h3.lt
  have := h4.lt
  omega

theorem hex4_of {u r : Str} {n : Nat} (h : HexCode u n) : hex4 (u ++ r) = some (n, r) := by
  obtain ⟨a, b, c, d, i, j, k, l, h1, h2, h3, h4, rfl, rfl⟩ := h
  simp only [List.cons_append, List.nil_append, hex4, hexVal_iff.2 h1, hexVal_iff.2 h2,
    hexVal_iff.2 h3, hexVal_iff.2 h4, Option.bind_eq_bind, Option.bind_some, Option.some.injEq,
    Prod.mk.injEq, and_true]
  omega

theorem hex4_some {s r : Str} {n : Nat} (h : hex4 s = some (n, r)) :
    ∃ u, HexCode u n ∧ s = u ++ r := by
  unfold hex4 at h
  split at h
  · rename_i a b c d rest
    simp only [Option.bind_eq_bind, Option.bind_eq_some_iff] at h
    obtain ⟨i, h1, j, h2, k, h3, l, h4, h5⟩ := h
    simp only [Option.some.injEq, Prod.mk.injEq] at h5
    obtain ⟨rfl, rfl⟩ := h5
    refine ⟨[a, b, c, d], ⟨a, b, c, d, i, j, k, l, hexVal_iff.1 h1, hexVal_iff.1 h2,
      hexVal_iff.1 h3, hexVal_iff.1 h4, rfl, by omega⟩, rfl⟩
  · cases h

theorem shortEscape_iff {e c : Char} : shortEscape e = some c ↔ (e, c) ∈ shortEscapes := by
  unfold shortEscape shortEscapes
  constructor
  · intro h
    repeat' split at h
    all_goals first
      | (cases h; subst_vars; decide)
      | cases h
  · intro h
    simp only [List.mem_cons, Prod.mk.injEq, List.not_mem_nil, or_false] at h
    rcases h with ⟨rfl, rfl⟩ | ⟨rfl, rfl⟩ | ⟨rfl, rfl⟩ | ⟨rfl, rfl⟩ | ⟨rfl, rfl⟩ | ⟨rfl, rfl⟩ |
      ⟨rfl, rfl⟩ | ⟨rfl, rfl⟩ <;> decide

theorem lowEscape_of {v r : Str} {m : Nat} (h : HexCode v m) (hm : IsLow m) :
    lowEscape ('\\' :: 'u' :: (v ++ r)) = some (m, r) := by
  unfold lowEscape
  simp only [hex4_of h]
  unfold IsLow at hm
  rw [if_pos (by omega)]

theorem lowEscape_some {s r : Str} {m : Nat} (h : lowEscape s = some (m, r)) :
    ∃ v, HexCode v m ∧ IsLow m ∧ s = '\\' :: 'u' :: (v ++ r) := by
  unfold lowEscape at h
  split at h
  · rename_i rest
    split at h
    · rename_i m' r' hx
      split at h
      · rename_i hm
        cases h
        obtain ⟨v, hv, rfl⟩ := hex4_some hx
        exact ⟨v, hv, ⟨by omega, by omega⟩, rfl⟩
      · cases h
    · cases h
  · cases h

theorem consChar_some (c : Char) (s : Option Str) : consChar (some c) s = s.map (c :: ·) := by
  cases s <;> rfl

theorem strChar_plain {c : Char} {cs : Str} (hb : c ≠ '\\') (hc : 32 ≤ c.toNat) :
    strChar (c :: cs) = some (some c, cs) := by
  simp only [strChar]
  rw [if_neg hb, if_neg (by omega)]

theorem strChar_unicode (s : Str) : strChar ('\\' :: 'u' :: s) = unicodeEscape s := by
  simp only [strChar]
  rw [if_pos trivial, show shortEscape 'u' = none by decide]
  simp

theorem parseStrBody_cons {c : Char} {s : Str} (fuel : Nat) (h : c ≠ '"') :
    parseStrBody (fuel + 1) (c :: s) = (match strChar (c :: s) with
      | none => none
      | some (c, r) => (parseStrBody fuel r).map fun (t, r) => (consChar c t, r)) := by
  rw [parseStrBody]
  · rfl
  · intro r hr
    cases hr
    exact h rfl

theorem HexCode.unique {u v a b : Str} {n m : Nat} (hu : HexCode u n) (hv : HexCode v m)
    (h : u ++ a = v ++ b) : u = v ∧ n = m ∧ a = b := by
  have h1 := hex4_of (r := a) hu
  rw [h, hex4_of hv] at h1
  cases h1
  exact ⟨List.append_cancel_right h, rfl, rfl⟩

/-- A quoted text that goes on with the escape of a low surrogate does so before its end. -/
theorem Quoted.low_inside {s : Option Str} {t r r' : Str} {m : Nat} (h : Quoted s t)
    (hl : lowEscape (t ++ '"' :: r) = some (m, r')) :
    ∃ v t', t = '\\' :: 'u' :: (v ++ t') ∧ HexCode v m ∧ IsLow m := by
  obtain ⟨v, hv, hm, he⟩ := lowEscape_some hl
  have key : ∀ {u n t'}, HexCode u n → t = '\\' :: 'u' :: (u ++ t') →
      ∃ v t', t = '\\' :: 'u' :: (v ++ t') ∧ HexCode v m ∧ IsLow m := by
    intro u n t' hu ht
    rw [ht, List.cons_append, List.cons_append, List.cons.injEq, List.cons.injEq,
      List.append_assoc] at he
    obtain ⟨rfl, rfl, -⟩ := hu.unique hv he.2.2
    exact ⟨u, t', ht, hv, hm⟩
  cases h with
  | nil => simp at he
  | plain hq hb hc h => simp at he; exact absurd he.1 hb
  | short hc h =>
    simp only [List.cons_append, List.cons.injEq, true_and] at he
    rw [he.1] at hc
    simp [shortEscapes] at hc
  | code hu h1 h2 h => exact key hu rfl
  | pair hu h1 hv h2 h => exact key hu rfl
  | low hu h1 h => exact key hu rfl
  | high hu h1 h2 h => exact key hu rfl

theorem parseStrBody_of {x : Option Str} {q : Str} (h : Quoted x q) (r : Str) :
    ∀ fuel, q.length < fuel → parseStrBody fuel (q ++ '"' :: r) = some (x, r) := by
  induction h with
  | nil =>
    intro fuel hf
    obtain ⟨f, rfl⟩ : ∃ f, fuel = f + 1 := ⟨fuel - 1, by omega⟩
    rfl
  | @plain c s t hq hb hc h ih =>
    intro fuel hf
    simp only [List.length_cons] at hf
    obtain ⟨f, rfl⟩ : ∃ f, fuel = f + 1 := ⟨fuel - 1, by omega⟩
    rw [List.cons_append, parseStrBody_cons _ hq, strChar_plain hb hc]
    simp only [ih f (by omega), Option.map_some, consChar_some]
  | @short e c s t he h ih =>
    intro fuel hf
    simp only [List.length_cons] at hf
    obtain ⟨f, rfl⟩ : ∃ f, fuel = f + 1 := ⟨fuel - 1, by omega⟩
    rw [List.cons_append, parseStrBody_cons _ (by decide)]
    simp only [strChar, List.cons_append, if_true, shortEscape_iff.2 he, ih f (by omega),
      Option.map_some, consChar_some]
  | @code u n s t hu h1 h2 h ih =>
    intro fuel hf
    simp only [List.length_cons, List.length_append] at hf
    obtain ⟨f, rfl⟩ : ∃ f, fuel = f + 1 := ⟨fuel - 1, by omega⟩
    unfold IsHigh at h1
    unfold IsLow at h2
    rw [List.cons_append, parseStrBody_cons _ (by decide), List.cons_append, strChar_unicode,
      unicodeEscape, List.append_assoc, hex4_of hu]
    simp only []
    rw [if_neg (by omega), if_neg (by omega)]
    simp only [ih f (by omega), Option.map_some, consChar_some]
  | @pair u n v m s t hu h1 hv h2 h ih =>
    intro fuel hf
    simp only [List.length_cons, List.length_append] at hf
    obtain ⟨f, rfl⟩ : ∃ f, fuel = f + 1 := ⟨fuel - 1, by omega⟩
    have h1' := h1
    unfold IsHigh at h1'
    rw [List.cons_append, parseStrBody_cons _ (by decide), List.cons_append, strChar_unicode,
      unicodeEscape, List.append_assoc, hex4_of hu]
    simp only [List.cons_append, List.append_assoc]
    rw [if_neg (by omega), if_pos (by omega), lowEscape_of hv h2]
    have he : (n - 0xD800) * 1024 + (m - 0xDC00) + 0x10000 =
      0x10000 + 0x400 * (n - 0xD800) + (m - 0xDC00) := by omega
    simp only []
    rw [he]
    simp only [ih f (by omega), Option.map_some, consChar_some]
  | @low u n s t hu h1 h ih =>
    intro fuel hf
    simp only [List.length_cons, List.length_append] at hf
    obtain ⟨f, rfl⟩ : ∃ f, fuel = f + 1 := ⟨fuel - 1, by omega⟩
    unfold IsLow at h1
    rw [List.cons_append, parseStrBody_cons _ (by decide), List.cons_append, strChar_unicode,
      unicodeEscape, List.append_assoc, hex4_of hu]
    simp only []
    rw [if_pos (by omega)]
    simp only [ih f (by omega), Option.map_some, consChar]
  | @high u n s t hu h1 h2 h ih =>
    intro fuel hf
    simp only [List.length_cons, List.length_append] at hf
    obtain ⟨f, rfl⟩ : ∃ f, fuel = f + 1 := ⟨fuel - 1, by omega⟩
    unfold IsHigh at h1
    have hl : lowEscape (t ++ '"' :: r) = none := by
      cases hx : lowEscape (t ++ '"' :: r) with
      | none => rfl
      | some p =>
        obtain ⟨m, r'⟩ := p
        obtain ⟨v, t', ht, hv, hm⟩ := h.low_inside hx
        exact absurd hm (h2 v m t' ht hv)
    rw [List.cons_append, parseStrBody_cons _ (by decide), List.cons_append, strChar_unicode,
      unicodeEscape, List.append_assoc, hex4_of hu]
    simp only []
    rw [if_neg (by omega), if_pos (by omega), hl]
    simp only [ih f (by omega), Option.map_some, consChar]

theorem parseStrBody_some {fuel : Nat} : ∀ {s r : Str} {x : Option Str},
    parseStrBody fuel s = some (x, r) → ∃ q, Quoted x q ∧ s = q ++ '"' :: r := by
  induction fuel with
  | zero => intro s r x h; cases h
  | succ f ih =>
    intro s r x h
    unfold parseStrBody at h
    split at h
    · cases h; exact ⟨[], .nil, rfl⟩
    · rename_i hq
      split at h
      · cases h
      · rename_i c r1 hc
        obtain ⟨⟨t, r2⟩, h1, h2⟩ := Option.map_eq_some_iff.1 h
        cases h2
        obtain ⟨q, hqt, rfl⟩ := ih h1
        unfold strChar at hc
        split at hc
        · cases hc
        · rename_i a cs
          split at hc
          · rename_i ha
            subst ha
            split at hc
            · cases hc
            · rename_i e es
              split at hc
              · rename_i y hy
                cases hc
                refine ⟨'\\' :: e :: q, ?_, rfl⟩
                rw [consChar_some]
                exact .short (shortEscape_iff.1 hy) hqt
              · split at hc
                · rename_i he
                  subst he
                  unfold unicodeEscape at hc
                  split at hc
                  · cases hc
                  · rename_i n rest hx
                    obtain ⟨u, hu, rfl⟩ := hex4_some hx
                    split at hc
                    · rename_i hn
                      cases hc
                      refine ⟨'\\' :: 'u' :: (u ++ q), ?_, by simp⟩
                      exact .low hu ⟨by omega, by omega⟩ hqt
                    · split at hc
                      · rename_i hn1 hn2
                        split at hc
                        · rename_i m rest' hl
                          obtain ⟨v, hv, hm, rfl⟩ := lowEscape_some hl
                          cases hc
                          refine ⟨'\\' :: 'u' :: (u ++ '\\' :: 'u' :: (v ++ q)), ?_, by simp⟩
                          have := Quoted.pair hu (⟨by omega, by omega⟩ : IsHigh n) hv hm hqt
                          rw [consChar_some]
                          have he : (n - 0xD800) * 1024 + (m - 0xDC00) + 0x10000 =
                            0x10000 + 0x400 * (n - 0xD800) + (m - 0xDC00) := by omega
                          rw [he]
                          exact this
                        · rename_i hl
                          cases hc
                          refine ⟨'\\' :: 'u' :: (u ++ q), ?_, by simp⟩
                          refine .high hu ⟨by omega, by omega⟩ ?_ hqt
                          rintro v m t' rfl hv hm
                          rw [List.cons_append, List.cons_append, List.append_assoc,
                            lowEscape_of hv hm] at hl
                          cases hl
                      · rename_i hn1 hn2
                        cases hc
                        refine ⟨'\\' :: 'u' :: (u ++ q), ?_, by simp⟩
                        rw [consChar_some]
                        exact .code hu (by unfold IsHigh; omega) (by unfold IsLow; omega) hqt
                · cases hc
          · split at hc
            · cases hc
            · rename_i ha hn
              cases hc
              refine ⟨a :: q, ?_, rfl⟩
              rw [consChar_some]
              refine .plain ?_ ha (by omega) hqt
              rintro rfl
              exact hq _ rfl

/-! ## Numbers -/

/-- The text does not go on with a digit. -/
def NoDigit (rest : Str) : Prop := ∀ c cs, rest = c :: cs → isDigit c = false

theorem NoDigit.of {c : Char} {cs : Str} (h : isDigit c = false) : NoDigit (c :: cs) := by
  intro d ds hd; cases hd; exact h

theorem NoDigit.nil : NoDigit [] := by intro c cs h; cases h

theorem isDigit_eq (c : Char) : isDigit c = c.isDigit := by
  unfold isDigit Char.isDigit
  rfl

theorem isDigit_iff {c : Char} : isDigit c = true ↔ c ∈ "0123456789".toList := by
  constructor
  · intro h
    have hc := (Char.ofNat_toNat c).symm
    simp only [isDigit, Bool.and_eq_true, decide_eq_true_eq, char_le] at h
    obtain ⟨h1, h2⟩ := h
    have h1 : 48 ≤ c.toNat := h1
    have h2 : c.toNat ≤ 57 := h2
    generalize c.toNat = m at *
    interval_cases m <;> (subst hc; decide)
  · have : ∀ c ∈ "0123456789".toList, isDigit c = true := by decide
    exact this c

theorem natDigits_isDigit {n : Nat} {c : Char} (h : c ∈ natDigits n) : c.isDigit = true :=
  Nat.isDigit_of_mem_toDigits (by decide) (by decide) h

theorem natDigits_head_zero {n : Nat} (h : (natDigits n).head? = some '0') : n = 0 := by
  induction n using Nat.strongRecOn with
  | ind n ih =>
    unfold natDigits at h ih
    by_cases hn : n < 10
    · rw [Nat.toDigits_of_lt_base hn] at h
      simpa using h
    · rw [Nat.toDigits_of_base_le (by decide) (by omega)] at h
      have hne := @Nat.toDigits_ne_nil (n / 10) 10
      have h' : (Nat.toDigits 10 (n / 10)).head? = some '0' := by
        cases hd : Nat.toDigits 10 (n / 10) with
        | nil => exact absurd hd hne
        | cons a b => rw [hd] at h; simpa using h
      have := ih (n / 10) (by omega) h'
      omega

theorem decimal_natDigits (n : Nat) : decimal (natDigits n) = n := by
  have := @Nat.ofDigitChars_ten_toDigits n
  exact this

theorem span_digits {ds r : Str} (h : ∀ c ∈ ds, isDigit c = true) (hr : NoDigit r) :
    (ds ++ r).takeWhile isDigit = ds ∧ (ds ++ r).dropWhile isDigit = r := by
  induction ds with
  | nil =>
    cases r with
    | nil => exact ⟨rfl, rfl⟩
    | cons c r => simp [hr c r rfl]
  | cons c ds ih =>
    obtain ⟨h1, h2⟩ := ih fun x hx => h x (by simp [hx])
    have hc := h c (by simp)
    simp only [List.cons_append, List.takeWhile_cons, List.dropWhile_cons, hc, if_true, h1, h2,
      and_self]

theorem takeWhile_digits (s : Str) : ∀ c ∈ s.takeWhile isDigit, isDigit c = true := by
  intro c hc
  have := List.all_takeWhile (p := isDigit) (l := s)
  exact List.all_eq_true.1 this c hc

theorem dropWhile_noDigit (s : Str) : NoDigit (s.dropWhile isDigit) := by
  intro c cs h
  have := List.head_dropWhile_not isDigit (l := s) (by rw [h]; simp)
  simpa [h] using this

theorem natDigits_all (n : Nat) : ∀ c ∈ natDigits n, isDigit c = true := by
  intro c hc
  rw [isDigit_eq]; exact natDigits_isDigit hc

theorem natDigits_split {n : Nat} {r : Str} (hr : NoDigit r) :
    (natDigits n ++ r).takeWhile isDigit = natDigits n ∧
      (natDigits n ++ r).dropWhile isDigit = r :=
  span_digits (natDigits_all n) hr

/-- Digits without a leading zero are the digits of their value. -/
theorem natDigits_decimal {ds : Str} (hne : ds ≠ []) (hd : ∀ c ∈ ds, isDigit c = true)
    (hz : ds.head? = some '0' → ds = ['0']) : natDigits (decimal ds) = ds := by
  have digit : ∀ c, isDigit c = true → c.toNat - 48 < 10 ∧ Nat.digitChar (c.toNat - 48) = c := by
    intro c hc
    have : ∀ c ∈ "0123456789".toList, c.toNat - 48 < 10 ∧ Nat.digitChar (c.toNat - 48) = c := by
      decide
    exact this c (isDigit_iff.1 hc)
  -- positive unless it is zero
  have pos : ∀ ds : Str, ds ≠ [] → (∀ c ∈ ds, isDigit c = true) → ds.head? ≠ some '0' →
      0 < decimal ds := by
    have grow : ∀ (l : Str) (a : Nat), 0 < a →
        0 < l.foldl (fun n c => 10 * n + (c.toNat - 48)) a := by
      intro l
      induction l with
      | nil => intro a ha; exact ha
      | cons c l ih => intro a ha; exact ih _ (by show 0 < 10 * a + _; omega)
    intro ds hne hd hz
    cases ds with
    | nil => exact absurd rfl hne
    | cons c l =>
      refine grow l _ ?_
      show 0 < 10 * 0 + (c.toNat - 48)
      have hc := digit c (hd c (by simp))
      have : c ≠ '0' := by rintro rfl; exact hz rfl
      rcases Nat.eq_zero_or_pos (c.toNat - 48) with h0 | h0
      · rw [h0] at hc; exact absurd hc.2.symm this
      · omega
  induction ds using List.reverseRecOn with
  | nil => exact absurd rfl hne
  | append_singleton l c ih =>
    have hc := digit c (hd c (by simp))
    have hval : decimal (l ++ [c]) = 10 * decimal l + (c.toNat - 48) := by
      unfold decimal; rw [List.foldl_append]; rfl
    rw [hval]
    unfold natDigits
    cases l with
    | nil =>
      show Nat.toDigits 10 (10 * 0 + (c.toNat - 48)) = [c]
      rw [Nat.mul_zero, Nat.zero_add, Nat.toDigits_of_lt_base hc.1, hc.2]
    | cons a l =>
      have ha : a ≠ '0' := by
        rintro rfl
        have := hz rfl
        simp at this
      have hl := ih (by simp) (fun x hx => hd x (by simp at hx ⊢; tauto))
        (fun h => absurd (by simpa using h) ha)
      have hp := pos (a :: l) (by simp) (fun x hx => hd x (by simp at hx ⊢; tauto))
        (by simpa using ha)
      rw [Nat.toDigits_of_base_le (by decide) (by omega)]
      have e1 : (10 * decimal (a :: l) + (c.toNat - 48)) / 10 = decimal (a :: l) := by omega
      have e2 : (10 * decimal (a :: l) + (c.toNat - 48)) % 10 = c.toNat - 48 := by omega
      rw [e1, e2, hc.2]
      unfold natDigits at hl
      rw [hl]

theorem intPart_of {n : Nat} {r : Str} (hr : NoDigit r) :
    intPart (natDigits n ++ r) = some (natDigits n, r) := by
  obtain ⟨h1, h2⟩ := natDigits_split (n := n) hr
  unfold intPart
  rw [h1, h2]
  split
  · rename_i h; exact absurd h Nat.toDigits_ne_nil
  · rename_i c cs h
    have hn : n = 0 := natDigits_head_zero (by rw [h]; rfl)
    subst hn
    have : natDigits 0 = ['0'] := rfl
    rw [this] at h
    simp at h
  · rfl

theorem intPart_some {s ds r : Str} (h : intPart s = some (ds, r)) :
    s = ds ++ r ∧ NoDigit r ∧ ds = natDigits (decimal ds) := by
  unfold intPart at h
  split at h
  · cases h
  · cases h
  · rename_i hne hz
    cases h
    refine ⟨(List.takeWhile_append_dropWhile (p := isDigit) (l := s)).symm,
      dropWhile_noDigit s, (natDigits_decimal hne (takeWhile_digits s) ?_).symm⟩
    intro hh
    cases ht : s.takeWhile isDigit with
    | nil => exact absurd ht hne
    | cons c cs =>
      rw [ht] at hh
      cases hh
      cases cs with
      | nil => rfl
      | cons d cs => exact absurd ht (hz d cs)

/-- What follows a number. -/
def NumEnd (rest : Str) : Prop :=
  ∀ c cs, rest = c :: cs → isDigit c = false ∧ c ≠ '.' ∧ c ≠ 'e' ∧ c ≠ 'E'

theorem NumEnd.noDigit {r : Str} (h : NumEnd r) : NoDigit r := fun c cs hc => (h c cs hc).1

theorem Digits.all {ds : Str} (h : Digits ds) : ∀ c ∈ ds, isDigit c = true :=
  fun c hc => isDigit_iff.2 (h.2 c hc)

theorem digits_takeWhile {s : Str} (h : (s.takeWhile isDigit).isEmpty = false) :
    Digits (s.takeWhile isDigit) :=
  ⟨(by intro h'; rw [h'] at h; cases h), fun c hc => isDigit_iff.1 (takeWhile_digits s c hc)⟩

theorem expPart_of {e r : Str} (he : Exponent e) (hr : NumEnd r) :
    expPart (e ++ r) = some (decide (e ≠ []), r) := by
  rcases he with rfl | ⟨c, sign, ds, hc, hs, hd, rfl⟩
  · rw [List.nil_append]
    cases r with
    | nil => rfl
    | cons c r =>
      have := hr c r rfl
      simp only [expPart]
      rw [if_neg (by tauto)]
      rfl
  · have hsp := span_digits hd.all hr.noDigit
    have hne : ((ds ++ r).takeWhile isDigit).isEmpty = false := by
      rw [hsp.1]
      cases hds : ds with
      | nil => exact absurd hds hd.1
      | cons => rfl
    rw [List.cons_append, List.append_assoc]
    simp only [expPart]
    rw [if_pos hc]
    have key : skipSign (sign ++ (ds ++ r)) = ds ++ r := by
      rcases hs with rfl | rfl | rfl
      · cases hds : ds with
        | nil => exact absurd hds hd.1
        | cons x xs =>
          have hx := hd.2 x (by rw [hds]; simp)
          simp only [List.nil_append, List.cons_append, skipSign]
          rw [if_neg]
          rintro (rfl | rfl)
          · exact absurd hx (by decide)
          · exact absurd hx (by decide)
      · rfl
      · rfl
    rw [key, hne, hsp.2]
    simp

theorem expPart_some {s r : Str} {b : Bool} (h : expPart s = some (b, r)) :
    ∃ e, Exponent e ∧ s = e ++ r ∧ b = decide (e ≠ []) ∧
      (e ≠ [] → NoDigit r) ∧ (e = [] → ∀ c cs, r = c :: cs → c ≠ 'e' ∧ c ≠ 'E') := by
  unfold expPart at h
  split at h
  · rename_i c r0
    split at h
    · rename_i hc
      split at h
      · cases h
      · rename_i hne
        cases h
        have key : ∃ sign, (sign = [] ∨ sign = ['+'] ∨ sign = ['-']) ∧
            r0 = sign ++ skipSign r0 := by
          cases r0 with
          | nil => exact ⟨[], Or.inl rfl, rfl⟩
          | cons d r' =>
            by_cases hd : d = '+' ∨ d = '-'
            · rcases hd with rfl | rfl
              · exact ⟨['+'], Or.inr (Or.inl rfl), rfl⟩
              · exact ⟨['-'], Or.inr (Or.inr rfl), rfl⟩
            · exact ⟨[], Or.inl rfl, by simp only [skipSign, if_neg hd, List.nil_append]⟩
        obtain ⟨sign, hs, hr⟩ := key
        generalize skipSign r0 = r1 at *
        have hd := digits_takeWhile (s := r1) (by simpa using hne)
        refine ⟨c :: (sign ++ r1.takeWhile isDigit), Or.inr ⟨c, sign, _, hc, hs, hd, rfl⟩, ?_, ?_,
          ?_, ?_⟩
        · rw [hr, List.cons_append, List.append_assoc, List.takeWhile_append_dropWhile]
        · simp
        · intro _; exact dropWhile_noDigit r1
        · intro h; cases h
    · rename_i hc
      cases h
      refine ⟨[], Or.inl rfl, rfl, rfl, fun h => absurd rfl h, ?_⟩
      rintro - x xs hx
      cases hx
      tauto
  · cases h
    exact ⟨[], Or.inl rfl, rfl, rfl, fun h => absurd rfl h, by rintro - x xs hx; cases hx⟩

theorem exponent_head {e r : Str} (he : Exponent e) (hr : NumEnd r) :
    ∀ c cs, e ++ r = c :: cs → isDigit c = false ∧ c ≠ '.' := by
  intro c cs h
  rcases he with rfl | ⟨x, sign, ds, hx, -, -, rfl⟩
  · exact ⟨(hr c cs h).1, (hr c cs h).2.1⟩
  · simp only [List.cons_append, List.cons.injEq] at h
    rw [← h.1]
    rcases hx with rfl | rfl <;> exact ⟨by decide, by decide⟩

theorem fracPart_of {f s : Str} (hf : Fraction f)
    (hs : ∀ c cs, s = c :: cs → isDigit c = false ∧ c ≠ '.') :
    fracPart (f ++ s) = some (decide (f ≠ []), s) := by
  rcases hf with rfl | ⟨ds, hd, rfl⟩
  · rw [List.nil_append]
    unfold fracPart
    split
    · rename_i r
      exact absurd rfl (hs '.' r rfl).2
    · rfl
  · have hsp := span_digits hd.all (fun c cs h => (hs c cs h).1)
    have hne : ((ds ++ s).takeWhile isDigit).isEmpty = false := by
      rw [hsp.1]
      cases hds : ds with
      | nil => exact absurd hds hd.1
      | cons => rfl
    rw [List.cons_append]
    simp only [fracPart, hne, hsp.2]
    simp

theorem fracPart_some {s r : Str} {b : Bool} (h : fracPart s = some (b, r)) :
    ∃ f, Fraction f ∧ s = f ++ r ∧ b = decide (f ≠ []) := by
  unfold fracPart at h
  split at h
  · rename_i r0
    split at h
    · cases h
    · rename_i hne
      cases h
      refine ⟨'.' :: r0.takeWhile isDigit, Or.inr ⟨_, digits_takeWhile (by simpa using hne), rfl⟩,
        ?_, by simp⟩
      rw [List.cons_append, List.takeWhile_append_dropWhile]
  · cases h
    exact ⟨[], Or.inl rfl, rfl, rfl⟩

theorem natDigits_head (n : Nat) : ∃ c cs, natDigits n = c :: cs ∧ isDigit c = true := by
  cases h : natDigits n with
  | nil => exact absurd h Nat.toDigits_ne_nil
  | cons c cs => exact ⟨c, cs, rfl, natDigits_all n c (by rw [h]; simp)⟩

theorem fraction_head {f s : Str} (hf : Fraction f)
    (hs : ∀ c cs, s = c :: cs → isDigit c = false ∧ c ≠ '.') : NoDigit (f ++ s) := by
  intro c cs h
  rcases hf with rfl | ⟨ds, -, rfl⟩
  · exact (hs c cs h).1
  · cases h; decide

/-- A number is read to its end. -/
theorem readNumber_of {sign f e r : Str} (n : Nat) (hs : sign = [] ∨ sign = ['-'])
    (hf : Fraction f) (he : Exponent e) (hr : NumEnd r) :
    readNumber (sign ++ (natDigits n ++ (f ++ (e ++ r)))) =
      some (if sign ++ f ++ e = [] then .nat n else .number, r) := by
  have h1 := exponent_head he hr
  have h2 := fraction_head hf h1
  have hneg : minusPart (sign ++ (natDigits n ++ (f ++ (e ++ r)))) =
      (decide (sign ≠ []), natDigits n ++ (f ++ (e ++ r))) := by
    rcases hs with rfl | rfl
    · obtain ⟨c, cs, hc, hd⟩ := natDigits_head n
      rw [List.nil_append, hc]
      unfold minusPart
      split
      · rename_i h
        cases h
        exact absurd hd (by decide)
      · rfl
    · rfl
  unfold readNumber
  simp only [hneg, intPart_of h2, fracPart_of hf h1, expPart_of he hr, Option.bind_eq_bind,
    Option.bind_some, decimal_natDigits]
  congr 2
  by_cases a : sign = [] <;> by_cases b : f = [] <;> by_cases c : e = [] <;> simp [a, b, c]

/-- What is read as a number is one. -/
theorem readNumber_some {s r : Str} {d : JDoc} (h : readNumber s = some (d, r)) :
    ∃ t, JDoc.Text d t ∧ s = t ++ r := by
  unfold readNumber at h
  have hneg : ∃ sign, (sign = [] ∨ sign = ['-']) ∧ s = sign ++ (minusPart s).2 ∧
      (minusPart s).1 = decide (sign ≠ []) := by
    unfold minusPart
    split
    · exact ⟨['-'], Or.inr rfl, rfl, rfl⟩
    · exact ⟨[], Or.inl rfl, rfl, rfl⟩
  obtain ⟨sign, hs, h1, h2⟩ := hneg
  generalize minusPart s = p at *
  obtain ⟨neg, s1⟩ := p
  simp only [Option.bind_eq_bind, Option.bind_eq_some_iff, Prod.exists] at h
  obtain ⟨ds, s2, h3, fr, s3, h4, ex, s4, h5, h6⟩ := h
  simp only [Option.some.injEq, Prod.mk.injEq] at h6
  obtain ⟨h6, rfl⟩ := h6
  obtain ⟨rfl, -, hds⟩ := intPart_some h3
  obtain ⟨f, hf, rfl, rfl⟩ := fracPart_some h4
  obtain ⟨e, he, rfl, rfl, -, -⟩ := expPart_some h5
  simp only at h1 h2
  subst h1 h2
  by_cases hall : sign ++ f ++ e = []
  · simp only [List.append_eq_nil_iff] at hall
    obtain ⟨⟨rfl, rfl⟩, rfl⟩ := hall
    simp only [ne_eq, not_true_eq_false, decide_false, Bool.or_self, Bool.false_eq_true,
      if_false] at h6
    subst h6
    refine ⟨_, .nat (decimal ds), ?_⟩
    rw [show Nat.toDigits 10 (decimal ds) = ds from hds.symm]
    rfl
  · have : (decide (sign ≠ []) || decide (f ≠ []) || decide (e ≠ [])) = true := by
      by_contra hc
      apply hall
      simp at hc
      obtain ⟨⟨rfl, rfl⟩, rfl⟩ := hc
      rfl
    rw [if_pos this] at h6
    subst h6
    refine ⟨_, .number (decimal ds) hs hf he hall, ?_⟩
    rw [show Nat.toDigits 10 (decimal ds) = ds from hds.symm]
    simp [List.append_assoc]

end Aftermath
