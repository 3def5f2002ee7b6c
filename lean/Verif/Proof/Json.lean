import Verif.Proof.JsonNodes

/-! # What is written is JSON -/

namespace Aftermath

/-! ## Strings -/

theorem hexDigit_hex : ∀ n < 16, HexDigit (hexDigit n) n := by
  unfold HexDigit
  decide

theorem Quoted.escape (c : Char) {s : Str} {q : Str} (h : Quoted (some s) q) :
    Quoted (some (c :: s)) (jsonEscapeChar c ++ q) := by
  have hof : ∀ n, c.toNat = n → Char.ofNat n = c := by
    rintro n rfl; exact Char.ofNat_toNat c
  have short : ∀ e, (e, c) ∈ shortEscapes → Quoted (some (c :: s)) (['\\', e] ++ q) :=
    fun e he => Quoted.short he h
  unfold jsonEscapeChar
  by_cases h1 : c = '"'
  · rw [if_pos h1]; exact short _ (by rw [h1]; decide)
  rw [if_neg h1]
  by_cases h2 : c = '\\'
  · rw [if_pos h2]; exact short _ (by rw [h2]; decide)
  rw [if_neg h2]
  by_cases h3 : c.toNat = 8
  · rw [if_pos h3]; exact short _ (by rw [← hof _ h3]; decide)
  rw [if_neg h3]
  by_cases h4 : c.toNat = 9
  · rw [if_pos h4]; exact short _ (by rw [← hof _ h4]; decide)
  rw [if_neg h4]
  by_cases h5 : c.toNat = 10
  · rw [if_pos h5]; exact short _ (by rw [← hof _ h5]; decide)
  rw [if_neg h5]
  by_cases h6 : c.toNat = 12
  · rw [if_pos h6]; exact short _ (by rw [← hof _ h6]; decide)
  rw [if_neg h6]
  by_cases h7 : c.toNat = 13
  · rw [if_pos h7]; exact short _ (by rw [← hof _ h7]; decide)
  rw [if_neg h7]
  by_cases h8 : c.toNat < 32
  · rw [if_pos h8]
    have hu : HexCode ['0', '0', hexDigit (c.toNat / 16), hexDigit (c.toNat % 16)] c.toNat :=
      ⟨_, _, _, _, 0, 0, c.toNat / 16, c.toNat % 16, Or.inl (by decide), Or.inl (by decide),
        hexDigit_hex _ (by omega), hexDigit_hex _ (by omega), rfl, by omega⟩
    have := Quoted.code hu (by unfold IsHigh; omega) (by unfold IsLow; omega) h
    rw [hof _ rfl] at this
    exact this
  · rw [if_neg h8]
    exact Quoted.plain h1 h2 (by omega) h

theorem quoted_escape (s : Str) : Quoted (some s) (s.flatMap jsonEscapeChar) := by
  induction s with
  | nil => exact .nil
  | cons c s ih => rw [List.flatMap_cons]; exact ih.escape c

/-! ## Values -/

mutual
/-- A written value, as a document. -/
def Json.toDoc : Json → JDoc
  | .str s => .str (some s)
  | .num n => .nat n
  | .arr l => .arr (Json.toDocs l)
  | .obj l => .obj (Json.toMembers l)
/-- see `Json.toDoc` -/
def Json.toDocs : List Json → List JDoc
  | [] => []
  | x :: xs => x.toDoc :: Json.toDocs xs
/-- see `Json.toDoc` -/
def Json.toMembers : List (Str × Json) → List (Option Str × JDoc)
  | [] => []
  | (k, x) :: xs => (some k, x.toDoc) :: Json.toMembers xs
end

mutual
theorem Json.print_text (j : Json) : JDoc.Text j.toDoc j.print := by
  cases j with
  | str s => rw [Json.toDoc, Json.print, jsonStr]; exact .str (quoted_escape s)
  | num n => rw [Json.toDoc, Json.print]; exact .nat n
  | arr l =>
    rw [Json.toDoc, Json.print]
    cases l with
    | nil => rw [Json.toDocs, Json.printList]; exact .arrNil .nil
    | cons x xs => exact .arr (Json.printList_text (x :: xs) (by simp))
  | obj l =>
    rw [Json.toDoc, Json.print]
    cases l with
    | nil => rw [Json.toMembers, Json.printFields]; exact .objNil .nil
    | cons x xs => exact .obj (Json.printFields_text (x :: xs) (by simp))
termination_by structural j
theorem Json.printList_text (l : List Json) (hne : l ≠ []) :
    JDoc.Items (Json.toDocs l) (Json.printList l) := by
  cases l with
  | nil => exact absurd rfl hne
  | cons x xs =>
    have h := x.print_text
    cases xs with
    | nil =>
      rw [Json.toDocs, Json.toDocs, Json.printList]
      have := JDoc.Items.one .nil h .nil
      simpa using this
    | cons y ys =>
      have hl := Json.printList_text (y :: ys) (by simp)
      rw [Json.toDocs, Json.printList]
      exact JDoc.Items.more .nil h .nil hl
termination_by structural l
theorem Json.printFields_text (l : List (Str × Json)) (hne : l ≠ []) :
    JDoc.Members (Json.toMembers l) (Json.printFields l) := by
  cases l with
  | nil => exact absurd rfl hne
  | cons kx xs =>
    obtain ⟨k, x⟩ := kx
    have h := x.print_text
    cases xs with
    | nil =>
      rw [Json.toMembers, Json.toMembers, Json.printFields, jsonStr]
      have := JDoc.Members.one .nil (quoted_escape k) .nil .nil h .nil
      simpa using this
    | cons y ys =>
      have hl := Json.printFields_text (y :: ys) (by simp)
      rw [Json.toMembers, Json.printFields, jsonStr]
      have := JDoc.Members.more .nil (quoted_escape k) .nil .nil h .nil hl
      simpa using this
termination_by structural l
end

theorem Json.written (j : Json) : JDoc.Written j.toDoc j.print :=
  ⟨[], j.print, [], .nil, j.print_text, .nil, by simp⟩

mutual
theorem Json.toDoc_inj (a b : Json) (h : a.toDoc = b.toDoc) : a = b := by
  cases a with
  | str s => cases b <;> simp [Json.toDoc] at h ⊢; exact h
  | num n => cases b <;> simp [Json.toDoc] at h ⊢; exact h
  | arr l =>
    cases b with
    | arr l' => simp [Json.toDoc] at h ⊢; exact Json.toDocs_inj l l' h
    | _ => simp [Json.toDoc] at h
  | obj l =>
    cases b with
    | obj l' => simp [Json.toDoc] at h ⊢; exact Json.toMembers_inj l l' h
    | _ => simp [Json.toDoc] at h
termination_by structural a
theorem Json.toDocs_inj (a b : List Json) (h : Json.toDocs a = Json.toDocs b) : a = b := by
  cases a with
  | nil => cases b <;> simp [Json.toDocs] at h ⊢
  | cons x xs =>
    cases b with
    | nil => simp [Json.toDocs] at h
    | cons y ys =>
      rw [Json.toDocs, Json.toDocs, List.cons.injEq] at h
      rw [Json.toDoc_inj x y h.1, Json.toDocs_inj xs ys h.2]
termination_by structural a
theorem Json.toMembers_inj (a b : List (Str × Json))
    (h : Json.toMembers a = Json.toMembers b) : a = b := by
  cases a with
  | nil =>
    cases b with
    | nil => rfl
    | cons y ys => obtain ⟨k', y⟩ := y; simp [Json.toMembers] at h
  | cons x xs =>
    obtain ⟨k, x⟩ := x
    cases b with
    | nil => simp [Json.toMembers] at h
    | cons y ys =>
      obtain ⟨k', y⟩ := y
      rw [Json.toMembers, Json.toMembers, List.cons.injEq, Prod.mk.injEq] at h
      rw [Json.toDoc_inj x y h.1.2, Json.toMembers_inj xs ys h.2, Option.some.inj h.1.1]
termination_by structural a
end

/-- Different values are written differently. -/
theorem Json.print_inj {a b : Json} (h : a.print = b.print) : a = b := by
  have h1 := a.written
  rw [h] at h1
  exact Json.toDoc_inj a b (h1.unique b.written)

end Aftermath
