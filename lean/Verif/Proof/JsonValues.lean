import Verif.Proof.JsonText

/-! # The reader accepts exactly the JSON texts: arrays, objects and whole documents -/

namespace Aftermath

/-! ## What is accepted is JSON -/

theorem keyword_some {w s r : Str} {d d' : JDoc} (h : keyword w d s = some (d', r)) :
    d' = d ∧ s = w ++ r := by
  unfold keyword at h
  split at h
  · rename_i hp
    cases h
    obtain ⟨t, rfl⟩ := List.isPrefixOf_iff_prefix.1 hp
    simp
  · cases h

theorem keyword_of (w r : Str) (d : JDoc) : keyword w d (w ++ r) = some (d, r) := by
  unfold keyword
  rw [if_pos (List.isPrefixOf_iff_prefix.2 ⟨r, rfl⟩)]
  simp

/-- The texts of the elements read by `parseElems`, up to the bracket. -/
def ElemsText (first : Bool) (l : List JDoc) (t : Str) : Prop :=
  (l = [] ∧ Blank t) ∨ (first = true ∧ JDoc.Items l t) ∨
    (first = false ∧ ∃ b u, Blank b ∧ t = b ++ ',' :: u ∧ JDoc.Items l u)

/-- The texts of the members read by `parseFields`, up to the bracket. -/
def FieldsText (first : Bool) (l : List (Option Str × JDoc)) (t : Str) : Prop :=
  (l = [] ∧ Blank t) ∨ (first = true ∧ JDoc.Members l t) ∨
    (first = false ∧ ∃ b u, Blank b ∧ t = b ++ ',' :: u ∧ JDoc.Members l u)

theorem ElemsText.cons {first : Bool} {d : JDoc} {l : List JDoc} {a t t' : Str} (ha : Blank a)
    (h : JDoc.Text d t) (hl : ElemsText false l t') :
    JDoc.Items (d :: l) (a ++ (t ++ t')) := by
  rcases hl with ⟨rfl, hb⟩ | ⟨h', -⟩ | ⟨-, b, u, hb, rfl, hu⟩
  · exact .one ha h hb
  · cases h'
  · exact .more ha h hb hu

theorem FieldsText.cons {k : Option Str} {d : JDoc} {l : List (Option Str × JDoc)}
    {a q b c t t' : Str} (ha : Blank a) (hk : Quoted k q) (hb : Blank b) (hc : Blank c)
    (h : JDoc.Text d t) (hl : FieldsText false l t') :
    JDoc.Members ((k, d) :: l)
      (a ++ '"' :: (q ++ '"' :: (b ++ ':' :: (c ++ (t ++ t'))))) := by
  rcases hl with ⟨rfl, he⟩ | ⟨h', -⟩ | ⟨-, e, u, he, rfl, hu⟩
  · exact .one ha hk hb hc h he
  · cases h'
  · exact .more ha hk hb hc h he hu

theorem parse_some (fuel : Nat) :
    (∀ s r d, parseValue fuel s = some (d, r) →
      ∃ a t, Blank a ∧ JDoc.Text d t ∧ s = a ++ (t ++ r)) ∧
    (∀ first s r l, parseElems fuel first s = some (l, r) →
      ∃ t, ElemsText first l t ∧ s = t ++ ']' :: r) ∧
    (∀ first s r l, parseFields fuel first s = some (l, r) →
      ∃ t, FieldsText first l t ∧ s = t ++ '}' :: r) := by
  induction fuel with
  | zero =>
    refine ⟨?_, ?_, ?_⟩ <;> intros <;> rename_i h <;>
      simp [parseValue, parseElems, parseFields] at h
  | succ f ih =>
    obtain ⟨ihv, ihe, ihf⟩ := ih
    refine ⟨?_, ?_, ?_⟩
    · intro s r d h
      obtain ⟨a, ha, hs⟩ := skipSpace_split s
      rw [parseValue] at h
      split at h
      · cases h
      · rename_i c cs hcs
        rw [hcs] at hs
        refine ⟨a, ?_⟩
        suffices ∃ t, JDoc.Text d t ∧ c :: cs = t ++ r by
          obtain ⟨t, h1, h2⟩ := this
          exact ⟨t, ha, h1, by rw [hs, h2]⟩
        split at h
        · rename_i hc
          subst hc
          obtain ⟨⟨x, r'⟩, h1, h2⟩ := Option.map_eq_some_iff.1 h
          cases h2
          obtain ⟨q, hq, rfl⟩ := parseStrBody_some h1
          exact ⟨_, .str hq, by simp⟩
        split at h
        · rename_i hc
          subst hc
          obtain ⟨⟨x, r'⟩, h1, h2⟩ := Option.map_eq_some_iff.1 h
          cases h2
          obtain ⟨t, ht, rfl⟩ := ihe _ _ _ _ h1
          rcases ht with ⟨rfl, hb⟩ | ⟨-, hi⟩ | ⟨h', -⟩
          · exact ⟨_, .arrNil hb, by simp⟩
          · exact ⟨_, .arr hi, by simp⟩
          · cases h'
        split at h
        · rename_i hc
          subst hc
          obtain ⟨⟨x, r'⟩, h1, h2⟩ := Option.map_eq_some_iff.1 h
          cases h2
          obtain ⟨t, ht, rfl⟩ := ihf _ _ _ _ h1
          rcases ht with ⟨rfl, hb⟩ | ⟨-, hi⟩ | ⟨h', -⟩
          · exact ⟨_, .objNil hb, by simp⟩
          · exact ⟨_, .obj hi, by simp⟩
          · cases h'
        split at h
        · rename_i hc
          obtain ⟨rfl, rfl⟩ := keyword_some h
          exact ⟨_, .null, by rw [hc]; rfl⟩
        split at h
        · rename_i hc
          obtain ⟨rfl, rfl⟩ := keyword_some h
          exact ⟨_, .yes, by rw [hc]; rfl⟩
        split at h
        · rename_i hc
          obtain ⟨rfl, rfl⟩ := keyword_some h
          exact ⟨_, .no, by rw [hc]; rfl⟩
        · exact readNumber_some h
    · intro first s r l h
      obtain ⟨a, ha, hs⟩ := skipSpace_split s
      rw [parseElems] at h
      split at h
      · cases h
      · rename_i c cs hcs
        rw [hcs] at hs
        split at h
        · rename_i hc
          cases h
          exact ⟨a, Or.inl ⟨rfl, ha⟩, by rw [hs, hc]⟩
        split at h
        · rename_i hfc
          split at h
          · cases h
          · rename_i x r1 hx
            obtain ⟨⟨xs, r2⟩, h1, h2⟩ := Option.map_eq_some_iff.1 h
            cases h2
            obtain ⟨t', ht', rfl⟩ := ihe _ _ _ _ h1
            obtain ⟨b, t, hb, ht, heq⟩ := ihv _ _ _ hx
            cases first with
            | true =>
              rw [if_pos rfl] at heq
              refine ⟨(a ++ b) ++ (t ++ t'), Or.inr (Or.inl ⟨rfl, ?_⟩), by rw [hs, heq]; simp⟩
              exact ElemsText.cons (first := true) (ha.append hb) ht ht'
            | false =>
              rw [if_neg (by simp)] at heq
              have hc : c = ',' := by simpa using hfc
              refine ⟨a ++ ',' :: (b ++ (t ++ t')), Or.inr (Or.inr ⟨rfl, a, _, ha, rfl, ?_⟩),
                by rw [hs, heq, hc]; simp⟩
              exact ElemsText.cons (first := true) hb ht ht'
        · cases h
    · intro first s r l h
      obtain ⟨a, ha, hs⟩ := skipSpace_split s
      rw [parseFields] at h
      split at h
      · cases h
      · rename_i c cs hcs
        rw [hcs] at hs
        split at h
        · rename_i hc
          cases h
          exact ⟨a, Or.inl ⟨rfl, ha⟩, by rw [hs, hc]⟩
        split at h
        · rename_i hfc
          obtain ⟨b, hb, hs1⟩ := skipSpace_split (if first = true then c :: cs else cs)
          split at h
          · rename_i ks hks
            rw [hks] at hs1
            split at h
            · cases h
            · rename_i k r1 hk
              obtain ⟨q, hq, rfl⟩ := parseStrBody_some hk
              obtain ⟨b', hb', hs2⟩ := skipSpace_split r1
              split at h
              · rename_i r2 hr2
                rw [hr2] at hs2
                split at h
                · cases h
                · rename_i x r3 hx
                  obtain ⟨⟨xs, r4⟩, h1, h2⟩ := Option.map_eq_some_iff.1 h
                  cases h2
                  obtain ⟨t', ht', rfl⟩ := ihf _ _ _ _ h1
                  obtain ⟨e, t, he, ht, heq⟩ := ihv _ _ _ hx
                  cases first with
                  | true =>
                    rw [if_pos rfl] at hs1
                    refine ⟨_, Or.inr (Or.inl ⟨rfl, FieldsText.cons (ha.append hb) hq hb' he ht
                      ht'⟩), ?_⟩
                    rw [hs, hs1, hs2, heq]; simp
                  | false =>
                    rw [if_neg (by simp)] at hs1
                    have hc : c = ',' := by simpa using hfc
                    refine ⟨a ++ ',' :: _, Or.inr (Or.inr ⟨rfl, a, _, ha, rfl,
                      FieldsText.cons hb hq hb' he ht ht'⟩), ?_⟩
                    rw [hs, hs1, hs2, heq, hc]; simp
              · cases h
          · cases h
        · cases h

/-! ## JSON is accepted -/

theorem NumEnd.nil : NumEnd [] := by intro c cs h; cases h

theorem NumEnd.cons {c : Char} {cs : Str}
    (h : isDigit c = false ∧ c ≠ '.' ∧ c ≠ 'e' ∧ c ≠ 'E') : NumEnd (c :: cs) := by
  intro d ds hd; cases hd; exact h

theorem NumEnd.blank {b r : Str} (hb : Blank b) (hr : NumEnd r) : NumEnd (b ++ r) := by
  cases b with
  | nil => exact hr
  | cons c b =>
    refine .cons ?_
    rcases hb c (by simp) with rfl | rfl | rfl | rfl <;> decide

/-- How a document begins. -/
theorem JDoc.Text.head {d : JDoc} {t : Str} (h : JDoc.Text d t) :
    ∃ c cs, t = c :: cs ∧ isJsonSpace c = false ∧ c ≠ ']' ∧ c ≠ '}' := by
  have digit : ∀ c, isDigit c = true → isJsonSpace c = false ∧ c ≠ ']' ∧ c ≠ '}' := by
    have : ∀ c ∈ "0123456789".toList, isJsonSpace c = false ∧ c ≠ ']' ∧ c ≠ '}' := by decide
    exact fun c hc => this c (isDigit_iff.1 hc)
  have start : ∀ n r, ∃ c cs, Nat.toDigits 10 n ++ r = c :: cs ∧ isJsonSpace c = false ∧ c ≠ ']' ∧
      c ≠ '}' := by
    intro n r
    obtain ⟨c, cs, h1, h2⟩ := natDigits_head n
    exact ⟨c, cs ++ r, by rw [show Nat.toDigits 10 n = c :: cs from h1]; rfl, digit c h2⟩
  cases h with
  | null => exact ⟨'n', _, rfl, by decide⟩
  | yes => exact ⟨'t', _, rfl, by decide⟩
  | no => exact ⟨'f', _, rfl, by decide⟩
  | nat n =>
    have := start n []
    rwa [List.append_nil] at this
  | number n hs hf he hne =>
    rcases hs with rfl | rfl
    · rw [List.nil_append, List.append_assoc]
      exact start n _
    · exact ⟨'-', _, rfl, by decide⟩
  | str h => exact ⟨'"', _, rfl, by decide⟩
  | arrNil h => exact ⟨'[', _, rfl, by decide⟩
  | arr h => exact ⟨'[', _, rfl, by decide⟩
  | objNil h => exact ⟨'{', _, rfl, by decide⟩
  | obj h => exact ⟨'{', _, rfl, by decide⟩

theorem JDoc.Text.pos {d : JDoc} {t : Str} (h : JDoc.Text d t) : 1 ≤ t.length := by
  obtain ⟨c, cs, rfl, -⟩ := h.head
  simp

theorem parseValue_blank {a : Str} (ha : Blank a) (fuel : Nat) (s : Str) :
    parseValue fuel (a ++ s) = parseValue fuel s := by
  cases fuel with
  | zero => rw [parseValue, parseValue]
  | succ f => rw [parseValue, parseValue, skipSpace_blank ha]

theorem parseElems_blank {a : Str} (ha : Blank a) (fuel : Nat) (first : Bool) (s : Str) :
    parseElems fuel first (a ++ s) = parseElems fuel first s := by
  cases fuel with
  | zero => rw [parseElems, parseElems]
  | succ f => rw [parseElems, parseElems, skipSpace_blank ha]

theorem parseFields_blank {a : Str} (ha : Blank a) (fuel : Nat) (first : Bool) (s : Str) :
    parseFields fuel first (a ++ s) = parseFields fuel first s := by
  cases fuel with
  | zero => rw [parseFields, parseFields]
  | succ f => rw [parseFields, parseFields, skipSpace_blank ha]

theorem parseElems_end (fuel : Nat) (first : Bool) (r : Str) :
    parseElems (fuel + 1) first (']' :: r) = some ([], r) := by
  rw [parseElems, skipSpace_cons (by decide)]
  simp

theorem parseFields_end (fuel : Nat) (first : Bool) (r : Str) :
    parseFields (fuel + 1) first ('}' :: r) = some ([], r) := by
  rw [parseFields, skipSpace_cons (by decide)]
  simp

/-- The first element, or one behind a comma. -/
theorem parseElems_step {fuel : Nat} {first : Bool} {s r : Str} {d : JDoc}
    (hv : parseValue fuel s = some (d, r)) (hs : ∃ c cs, skipSpace s = c :: cs ∧ c ≠ ']') :
    parseElems (fuel + 1) first (if first then s else ',' :: s) =
      (parseElems fuel false r).map fun (xs, r) => (d :: xs, r) := by
  cases first with
  | true =>
    obtain ⟨c, cs, h1, h2⟩ := hs
    have hv' : parseValue fuel (c :: cs) = some (d, r) := by
      obtain ⟨a, ha, he⟩ := skipSpace_split s
      rw [he, h1, parseValue_blank ha] at hv
      exact hv
    rw [if_pos rfl, parseElems, h1]
    simp only [h2, if_false, true_or, if_true, hv']
  | false =>
    rw [if_neg (by simp), parseElems, skipSpace_cons (by decide)]
    simp [hv]

theorem parseFields_step {fuel : Nat} {first : Bool} {a q b c' t r : Str} {k : Option Str}
    {d : JDoc} (ha : Blank a) (hk : Quoted k q) (hb : Blank b)
    (hv : parseValue fuel (c' ++ (t ++ r)) = some (d, r)) :
    parseFields (fuel + 1) first
        (if first then a ++ '"' :: (q ++ '"' :: (b ++ ':' :: (c' ++ (t ++ r))))
          else ',' :: (a ++ '"' :: (q ++ '"' :: (b ++ ':' :: (c' ++ (t ++ r)))))) =
      (parseFields fuel false r).map fun (xs, r) => ((k, d) :: xs, r) := by
  have hq := parseStrBody_of hk (b ++ ':' :: (c' ++ (t ++ r)))
    ((q ++ '"' :: (b ++ ':' :: (c' ++ (t ++ r)))).length + 1) (by simp; omega)
  have hc : skipSpace (b ++ ':' :: (c' ++ (t ++ r))) = ':' :: (c' ++ (t ++ r)) := by
    rw [skipSpace_blank hb, skipSpace_cons (by decide)]
  have hs : skipSpace (a ++ '"' :: (q ++ '"' :: (b ++ ':' :: (c' ++ (t ++ r))))) =
      '"' :: (q ++ '"' :: (b ++ ':' :: (c' ++ (t ++ r)))) := by
    rw [skipSpace_blank ha, skipSpace_cons (by decide)]
  cases first with
  | true =>
    rw [if_pos rfl, parseFields, hs]
    simp only [show ('"' : Char) ≠ '}' by decide, if_false, true_or, if_true,
      skipSpace_cons (c := '"') (by decide), hq, hc, hv]
  | false =>
    rw [if_neg (by simp), parseFields, skipSpace_cons (by decide)]
    simp only [show (',' : Char) ≠ '}' by decide, if_false, or_true, if_true, hs, hq, hc, hv,
      Bool.false_eq_true]

mutual
theorem parseValue_of {d : JDoc} {t : Str} (h : JDoc.Text d t) (fuel : Nat) (r : Str)
    (hr : NumEnd r) (hf : 2 * t.length ≤ fuel) : parseValue fuel (t ++ r) = some (d, r) := by
  have hpos := h.pos
  obtain ⟨f, rfl⟩ : ∃ f, fuel = f + 1 := ⟨fuel - 1, by omega⟩
  have num : ∀ s : Str, (∃ c cs, s = c :: cs ∧ (isDigit c = true ∨ c = '-')) →
      parseValue (f + 1) s = readNumber s := by
    rintro s ⟨c, cs, rfl, hc⟩
    have : isJsonSpace c = false ∧ c ≠ '"' ∧ c ≠ '[' ∧ c ≠ '{' ∧ c ≠ 'n' ∧ c ≠ 't' ∧ c ≠ 'f' := by
      rcases hc with hc | rfl
      · have : ∀ c ∈ "0123456789".toList, isJsonSpace c = false ∧ c ≠ '"' ∧ c ≠ '[' ∧ c ≠ '{' ∧
          c ≠ 'n' ∧ c ≠ 't' ∧ c ≠ 'f' := by decide
        exact this c (isDigit_iff.1 hc)
      · decide
    obtain ⟨h1, h2, h3, h4, h5, h6, h7⟩ := this
    rw [parseValue, skipSpace_cons h1]
    simp only [h2, h3, h4, h5, h6, h7, if_false]
  cases h with
  | null =>
    rw [show "null".toList ++ r = 'n' :: ("ull".toList ++ r) from rfl, parseValue,
      skipSpace_cons (by decide)]
    simp only [show ('n' : Char) ≠ '"' by decide, show ('n' : Char) ≠ '[' by decide,
      show ('n' : Char) ≠ '{' by decide, if_false, if_true]
    exact keyword_of _ _ _
  | yes =>
    rw [show "true".toList ++ r = 't' :: ("rue".toList ++ r) from rfl, parseValue,
      skipSpace_cons (by decide)]
    simp only [show ('t' : Char) ≠ '"' by decide, show ('t' : Char) ≠ '[' by decide,
      show ('t' : Char) ≠ '{' by decide, show ('t' : Char) ≠ 'n' by decide, if_false, if_true]
    exact keyword_of _ _ _
  | no =>
    rw [show "false".toList ++ r = 'f' :: ("alse".toList ++ r) from rfl, parseValue,
      skipSpace_cons (by decide)]
    simp only [show ('f' : Char) ≠ '"' by decide, show ('f' : Char) ≠ '[' by decide,
      show ('f' : Char) ≠ '{' by decide,
      show ('f' : Char) ≠ 'n' by decide, show ('f' : Char) ≠ 't' by decide, if_false, if_true]
    exact keyword_of _ _ _
  | nat n =>
    obtain ⟨c, cs, h1, h2⟩ := natDigits_head n
    have := readNumber_of (sign := []) (f := []) (e := []) n (Or.inl rfl) (Or.inl rfl) (Or.inl rfl)
      hr
    rw [num _ ⟨c, cs ++ r, by rw [show Nat.toDigits 10 n = c :: cs from h1]; rfl, Or.inl h2⟩]
    exact this
  | @number sign frac exp n hs hfr he hne =>
    have := readNumber_of (sign := sign) n hs hfr he hr
    rw [if_neg hne] at this
    rw [show sign ++ Nat.toDigits 10 n ++ frac ++ exp ++ r =
      sign ++ (natDigits n ++ (frac ++ (exp ++ r))) by simp [natDigits]]
    rw [num, this]
    rcases hs with rfl | rfl
    · obtain ⟨c, cs, h1, h2⟩ := natDigits_head n
      exact ⟨c, cs ++ (frac ++ (exp ++ r)), by rw [h1]; rfl, Or.inl h2⟩
    · exact ⟨'-', _, rfl, Or.inr rfl⟩
  | @str s q h =>
    have := parseStrBody_of h r ((q ++ '"' :: r).length + 1) (by simp; omega)
    rw [show '"' :: (q ++ ['"']) ++ r = '"' :: (q ++ '"' :: r) by simp, parseValue,
      skipSpace_cons (by decide)]
    simp only [if_true, this, Option.map_some]
  | @arrNil b hb =>
    simp only [List.length_cons, List.length_append] at hf
    obtain ⟨g, rfl⟩ : ∃ g, f = g + 1 := ⟨f - 1, by omega⟩
    rw [show '[' :: (b ++ [']']) ++ r = '[' :: (b ++ ']' :: r) by simp, parseValue,
      skipSpace_cons (by decide)]
    simp [parseElems_blank hb, parseElems_end]
  | @arr l u h =>
    simp only [List.length_cons, List.length_append, List.length_nil] at hf
    have := parseElems_of h f true r (by omega)
    rw [if_pos rfl] at this
    rw [show '[' :: (u ++ [']']) ++ r = '[' :: (u ++ ']' :: r) by simp, parseValue,
      skipSpace_cons (by decide)]
    simp [this]
  | @objNil b hb =>
    simp only [List.length_cons, List.length_append] at hf
    obtain ⟨g, rfl⟩ : ∃ g, f = g + 1 := ⟨f - 1, by omega⟩
    rw [show '{' :: (b ++ ['}']) ++ r = '{' :: (b ++ '}' :: r) by simp, parseValue,
      skipSpace_cons (by decide)]
    simp [parseFields_blank hb, parseFields_end]
  | @obj l u h =>
    simp only [List.length_cons, List.length_append, List.length_nil] at hf
    have := parseFields_of h f true r (by omega)
    rw [if_pos rfl] at this
    rw [show '{' :: (u ++ ['}']) ++ r = '{' :: (u ++ '}' :: r) by simp, parseValue,
      skipSpace_cons (by decide)]
    simp [this]
theorem parseElems_of {l : List JDoc} {u : Str} (h : JDoc.Items l u) (fuel : Nat) (first : Bool)
    (r : Str) (hf : 2 * u.length + 2 ≤ fuel) :
    parseElems fuel first (if first then u ++ ']' :: r else ',' :: (u ++ ']' :: r)) =
      some (l, r) := by
  obtain ⟨f, rfl⟩ : ∃ f, fuel = f + 2 := ⟨fuel - 2, by omega⟩
  cases h with
  | @one a d t b ha h hb =>
    simp only [List.length_append] at hf
    obtain ⟨c, cs, rfl, hc1, hc2, -⟩ := h.head
    have hv := parseValue_of h (f + 1) (b ++ ']' :: r) (.blank hb (.cons (by decide))) (by omega)
    rw [← parseValue_blank ha] at hv
    have := parseElems_step (first := first) hv
      ⟨c, cs ++ (b ++ ']' :: r), by rw [skipSpace_blank ha]; exact skipSpace_cons hc1, hc2⟩
    rw [show a ++ (c :: cs ++ b) ++ ']' :: r = a ++ (c :: cs ++ (b ++ ']' :: r)) by simp, this,
      parseElems_blank hb, parseElems_end]
    rfl
  | @more a d t b l u ha h hb hl =>
    simp only [List.length_append, List.length_cons] at hf
    obtain ⟨c, cs, rfl, hc1, hc2, -⟩ := h.head
    have hv := parseValue_of h (f + 1) (b ++ ',' :: (u ++ ']' :: r))
      (.blank hb (.cons (by decide))) (by omega)
    rw [← parseValue_blank ha] at hv
    have := parseElems_step (first := first) hv
      ⟨c, cs ++ (b ++ ',' :: (u ++ ']' :: r)), by rw [skipSpace_blank ha]; exact skipSpace_cons hc1,
        hc2⟩
    have ih := parseElems_of hl (f + 1) false r (by omega)
    rw [if_neg (by simp)] at ih
    rw [show a ++ (c :: cs ++ (b ++ ',' :: u)) ++ ']' :: r =
      a ++ (c :: cs ++ (b ++ ',' :: (u ++ ']' :: r))) by simp, this, parseElems_blank hb, ih]
    rfl
theorem parseFields_of {l : List (Option Str × JDoc)} {u : Str} (h : JDoc.Members l u) (fuel : Nat)
    (first : Bool) (r : Str) (hf : 2 * u.length + 2 ≤ fuel) :
    parseFields fuel first (if first then u ++ '}' :: r else ',' :: (u ++ '}' :: r)) =
      some (l, r) := by
  obtain ⟨f, rfl⟩ : ∃ f, fuel = f + 2 := ⟨fuel - 2, by omega⟩
  cases h with
  | @one a k q b c d t e ha hk hb hc h he =>
    simp only [List.length_append, List.length_cons] at hf
    have hv := parseValue_of h (f + 1) (e ++ '}' :: r) (.blank he (.cons (by decide))) (by omega)
    rw [← parseValue_blank hc] at hv
    have := parseFields_step (first := first) ha hk hb hv
    rw [show a ++ '"' :: (q ++ '"' :: (b ++ ':' :: (c ++ (t ++ e)))) ++ '}' :: r =
      a ++ '"' :: (q ++ '"' :: (b ++ ':' :: (c ++ (t ++ (e ++ '}' :: r))))) by simp, this,
      parseFields_blank he, parseFields_end]
    rfl
  | @more a k q b c d t e l u ha hk hb hc h he hl =>
    simp only [List.length_append, List.length_cons] at hf
    have hv := parseValue_of h (f + 1) (e ++ ',' :: (u ++ '}' :: r))
      (.blank he (.cons (by decide))) (by omega)
    rw [← parseValue_blank hc] at hv
    have := parseFields_step (first := first) ha hk hb hv
    have ih := parseFields_of hl (f + 1) false r (by omega)
    rw [if_neg (by simp)] at ih
    rw [show a ++ '"' :: (q ++ '"' :: (b ++ ':' :: (c ++ (t ++ (e ++ ',' :: u))))) ++ '}' :: r =
      a ++ '"' :: (q ++ '"' :: (b ++ ':' :: (c ++ (t ++ (e ++ ',' :: (u ++ '}' :: r)))))) by simp,
      this, parseFields_blank he, ih]
    rfl
end

/-- The reader accepts exactly the texts of documents. -/
theorem parseJson_iff {s : Str} {d : JDoc} : parseJson s = some d ↔ JDoc.Written d s := by
  unfold parseJson
  constructor
  · intro h
    split at h
    · rename_i j r hv
      split at h
      · rename_i hr
        cases h
        obtain ⟨a, t, ha, ht, rfl⟩ := (parse_some _).1 _ _ _ hv
        exact ⟨a, t, r, ha, ht, blank_of_skipSpace (List.isEmpty_iff.1 hr), rfl⟩
      · cases h
    · cases h
  · rintro ⟨a, t, b, ha, ht, hb, rfl⟩
    have hr : NumEnd b := by
      have := NumEnd.blank hb .nil
      rwa [List.append_nil] at this
    rw [parseValue_blank ha, parseValue_of ht _ b hr (by simp only [List.length_append]; omega)]
    simp [skipSpace_of_blank hb]

/-- A text is the text of at most one document. -/
theorem JDoc.Written.unique {s : Str} {d d' : JDoc} (h : JDoc.Written d s)
    (h' : JDoc.Written d' s) : d = d' := by
  have h1 := parseJson_iff.2 h
  rw [parseJson_iff.2 h'] at h1
  cases h1
  rfl

end Aftermath
