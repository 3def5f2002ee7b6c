import Verif.Proof.JsonText

/-! # The text that is put on the clipboard -/

namespace Aftermath

theorem charText_iff {c : Char} {s : Str} : CharText c s ↔ s = jsonEscapeChar c := by
  have lo : ∀ n, n < 32 → ∀ a b : Char, "0123456789abcdef".toList[n / 16]? = some a →
      "0123456789abcdef".toList[n % 16]? = some b →
      (hexDigit (n / 16) = a ∧ hexDigit (n % 16) = b) := by
    have : ∀ n, n < 32 → "0123456789abcdef".toList[n / 16]? = some (hexDigit (n / 16)) ∧
        "0123456789abcdef".toList[n % 16]? = some (hexDigit (n % 16)) := by decide +kernel
    intro n hn a b ha hb
    obtain ⟨h1, h2⟩ := this n hn
    rw [h1] at ha
    rw [h2] at hb
    exact ⟨Option.some.inj ha, Option.some.inj hb⟩
  have hi : ∀ n, n < 32 → "0123456789abcdef".toList[n / 16]? = some (hexDigit (n / 16)) ∧
      "0123456789abcdef".toList[n % 16]? = some (hexDigit (n % 16)) := by decide +kernel
  have num : ∀ d : Char, c.toNat = d.toNat → c = d := fun d h => Char.toNat_inj.1 h
  constructor
  · intro h
    cases h with
    | plain hq hb hc =>
      unfold jsonEscapeChar
      simp only [hq, hb, if_false]
      repeat rw [if_neg (by omega)]
    | short he hs =>
      simp only [shortEscapes, List.mem_cons, List.not_mem_nil, or_false, Prod.mk.injEq] at he
      rcases he with ⟨rfl, rfl⟩ | ⟨rfl, rfl⟩ | ⟨rfl, rfl⟩ | ⟨rfl, rfl⟩ | ⟨rfl, rfl⟩ | ⟨rfl, rfl⟩ |
        ⟨rfl, rfl⟩ | ⟨rfl, rfl⟩ <;> first | exact absurd rfl hs | decide
    | code hc hs ha hb =>
      obtain ⟨h1, h2⟩ := lo _ hc _ _ ha hb
      have no : ∀ e d : Char, (e, d) ∈ shortEscapes → ¬ c.toNat = d.toNat := by
        rintro e d hm hcd
        rw [num d hcd] at hs
        exact hs e hm
      unfold jsonEscapeChar
      rw [if_neg (by rintro rfl; exact absurd hc (by decide)),
        if_neg (by rintro rfl; exact absurd hc (by decide)),
        if_neg (show ¬ c.toNat = 8 from no 'b' '\x08' (by decide)), if_neg (show ¬ c.toNat = 9 from no 't' '\t' (by decide)), if_neg (show ¬ c.toNat = 10 from no 'n' '\n' (by decide)),
        if_neg (show ¬ c.toNat = 12 from no 'f' '\x0c' (by decide)), if_neg (show ¬ c.toNat = 13 from no 'r' '\r' (by decide)), if_pos hc, h1, h2]
  · rintro rfl
    unfold jsonEscapeChar
    by_cases h1 : c = '"'
    · rw [if_pos h1, h1]; exact .short (by decide) (by decide)
    rw [if_neg h1]
    by_cases h2 : c = '\\'
    · rw [if_pos h2, h2]; exact .short (by decide) (by decide)
    rw [if_neg h2]
    by_cases h3 : c.toNat = 8
    · rw [if_pos h3, num '\x08' h3]; exact .short (by decide) (by decide)
    rw [if_neg h3]
    by_cases h4 : c.toNat = 9
    · rw [if_pos h4, num '\t' h4]; exact .short (by decide) (by decide)
    rw [if_neg h4]
    by_cases h5 : c.toNat = 10
    · rw [if_pos h5, num '\n' h5]; exact .short (by decide) (by decide)
    rw [if_neg h5]
    by_cases h6 : c.toNat = 12
    · rw [if_pos h6, num '\x0c' h6]; exact .short (by decide) (by decide)
    rw [if_neg h6]
    by_cases h7 : c.toNat = 13
    · rw [if_pos h7, num '\r' h7]; exact .short (by decide) (by decide)
    rw [if_neg h7]
    by_cases h8 : c.toNat < 32
    · rw [if_pos h8]
      refine .code h8 (fun e he => ?_) (hi _ h8).1 (hi _ h8).2
      simp only [shortEscapes, List.mem_cons, List.not_mem_nil, or_false, Prod.mk.injEq] at he
      rcases he with ⟨-, rfl⟩ | ⟨-, rfl⟩ | ⟨-, rfl⟩ | ⟨-, rfl⟩ | ⟨-, rfl⟩ | ⟨-, rfl⟩ | ⟨-, rfl⟩ |
        ⟨-, rfl⟩ <;> revert h1 h2 h3 h4 h5 h6 h7 h8 <;> decide
    · rw [if_neg h8]
      exact .plain h1 h2 (by omega)

theorem strText_iff {s t : Str} : StrText s t ↔ t = s.flatMap jsonEscapeChar := by
  constructor
  · intro h
    induction h with
    | nil => rfl
    | cons hc _ ih => rw [List.flatMap_cons, ← charText_iff.1 hc, ih]
  · rintro rfl
    induction s with
    | nil => exact .nil
    | cons c s ih => exact .cons (charText_iff.2 rfl) ih

theorem kindNames_iff {v : Variant} {name : String} :
    (v, name) ∈ kindNames ↔ name.toList = variantName v := by
  constructor
  · intro h
    simp only [kindNames, List.mem_cons, List.not_mem_nil, or_false, Prod.mk.injEq] at h
    rcases h with ⟨rfl, rfl⟩ | ⟨rfl, rfl⟩ | ⟨rfl, rfl⟩ | ⟨rfl, rfl⟩ | ⟨rfl, rfl⟩ <;> rfl
  · intro h
    have : ∀ m : String, name.toList = m.toList → name = m := fun m h => String.toList_inj.1 h
    cases v <;> rw [this _ h] <;> decide

theorem print_symbol (s : Str) : (Node.symbol s).toJson.print =
    "{\"Symbol\":\"".toList ++ s.flatMap jsonEscapeChar ++ "\"}".toList := by
  simp only [Node.toJson, Json.print, Json.printFields, jsonStr,
    show ("Symbol".toList.flatMap jsonEscapeChar) = "Symbol".toList by decide]
  simp

theorem print_container (v : Variant) (cells : List Row) (w : Nat) :
    (Node.container v cells w).toJson.print = "{\"Container\":[\"".toList ++ variantName v ++
      "\",{\"values\":[".toList ++ Json.printList (cellsToJson cells) ++ "],\"width\":".toList ++
      Nat.toDigits 10 w ++ "}]}".toList := by
  have h : (variantName v).flatMap jsonEscapeChar = variantName v := by cases v <;> decide
  simp only [Node.toJson, Json.print, Json.printFields, Json.printList, jsonStr, natDigits, h,
    show ("Container".toList.flatMap jsonEscapeChar) = "Container".toList by decide,
    show ("values".toList.flatMap jsonEscapeChar) = "values".toList by decide,
    show ("width".toList.flatMap jsonEscapeChar) = "width".toList by decide]
  simp

theorem print_cell (r : Row) : (Json.obj [("values".toList, .arr (rowToJson r))]).print =
    "{\"values\":[".toList ++ Json.printList (rowToJson r) ++ "]}".toList := by
  simp only [Json.print, Json.printFields, jsonStr,
    show ("values".toList.flatMap jsonEscapeChar) = "values".toList by decide]
  simp

mutual
theorem nodeText_print : ∀ n : Node, NodeText n n.toJson.print
  | .symbol s => by rw [print_symbol]; exact .symbol (strText_iff.2 rfl)
  | .container v cells w => by
    rw [print_container]
    have : ∃ name, (v, name) ∈ kindNames := by
      cases v <;> simp [kindNames]
    obtain ⟨name, hn⟩ := this
    rw [← kindNames_iff.1 hn]
    exact .container hn (cellsText_print cells)
theorem nodesText_print : ∀ ns : List Node, NodesText ns (Json.printList (rowToJson ns))
  | [] => .nil
  | [n] => .one (nodeText_print n)
  | n :: n' :: ns => .more (nodeText_print n) (nodesText_print (n' :: ns))
theorem cellsText_print : ∀ rs : List (List Node), CellsText rs (Json.printList (cellsToJson rs))
  | [] => .nil
  | [r] => by
    simp only [cellsToJson, Json.printList]
    rw [print_cell]
    exact .one (nodesText_print r)
  | r :: r' :: rs => by
    have h := CellsText.more (nodesText_print r) (cellsText_print (r' :: rs))
    have e : Json.printList (cellsToJson (r :: r' :: rs)) = "{\"values\":[".toList ++
        Json.printList (rowToJson r) ++ "]},".toList ++ Json.printList (cellsToJson (r' :: rs)) := by
      simp only [cellsToJson, Json.printList]
      rw [print_cell]
      simp
    rw [e]
    exact h
end

mutual
theorem NodeText.eq : ∀ {n : Node} {t : Str}, NodeText n t → t = n.toJson.print
  | _, _, .symbol h => by rw [print_symbol, strText_iff.1 h]
  | _, _, .container hv h => by rw [print_container, ← kindNames_iff.1 hv, h.eq]
theorem NodesText.eq : ∀ {ns : List Node} {t : Str}, NodesText ns t →
    t = Json.printList (rowToJson ns)
  | _, _, .nil => rfl
  | _, _, .one h => h.eq
  | _, _, .more h hs => by rw [h.eq, hs.eq]; rfl
theorem CellsText.eq : ∀ {rs : List (List Node)} {t : Str}, CellsText rs t →
    t = Json.printList (cellsToJson rs)
  | _, _, .nil => rfl
  | _, _, .one h => by
    simp only [cellsToJson, Json.printList]
    rw [print_cell, h.eq]
  | _, _, .more h hs => by
    rw [h.eq, hs.eq]
    simp only [cellsToJson, Json.printList]
    rw [print_cell]
    simp
end

theorem clipText_iff {nodes : List Node} {s : Str} : ClipText nodes s ↔ s = serializeNodes nodes := by
  have e : serializeNodes nodes = "{\"version\":1,\"data\":[".toList ++
      Json.printList (rowToJson nodes) ++ "]}".toList := by
    simp only [serializeNodes, Json.print, Json.printFields, jsonStr,
      show ("version".toList.flatMap jsonEscapeChar) = "version".toList by decide,
      show ("data".toList.flatMap jsonEscapeChar) = "data".toList by decide,
      show natDigits 1 = ['1'] by decide]
    simp
  constructor
  · rintro ⟨t, ht, rfl⟩
    rw [e, ht.eq]
  · rintro rfl
    exact ⟨_, nodesText_print nodes, e⟩

end Aftermath
