import Verif.Proof.Clipboard

/-! # What is written is never read as something else -/

namespace Aftermath

theorem kind_of_name {v v' : Variant} (h : IsKind (.str (some (variantName v))) v') : v' = v := by
  obtain ⟨name, hn, he⟩ := h
  rcases he with he | he
  · simp only [JDoc.str.injEq, Option.some.injEq] at he
    have := (variantOf_iff (v := v')).2 ⟨name, hn, he⟩
    rw [variantOf_name] at this
    cases this
    rfl
  · cases he

mutual
theorem Node.isNode_back {bits : Nat} (n : Node) {room : Nat} {n' : Node}
    (h : JDoc.IsNode bits room n.toJson.toDoc n') : n' = n := by
  cases n with
  | symbol s =>
    rw [Node.toJson] at h
    simp only [Json.toDoc, Json.toMembers] at h
    generalize hd : JDoc.obj _ = d at h
    cases h with
    | symbol s' => simp at hd; rw [hd]
    | container => simp at hd
  | container v cells w =>
    rw [Node.toJson] at h
    simp only [Json.toDoc, Json.toMembers, Json.toDocs] at h
    generalize hd : JDoc.obj _ = d at h
    cases h with
    | symbol s => simp at hd
    | @container r kind grid values v' cells' w' hv hg hw hc =>
      simp only [JDoc.obj.injEq, List.cons.injEq, Prod.mk.injEq, JDoc.arr.injEq, and_true,
        true_and] at hd
      obtain ⟨rfl, rfl⟩ := hd
      have := (record2_obj (by decide) _ _).unique hg
      simp only [JDoc.arr.injEq, JDoc.nat.injEq] at this
      rw [← this.1] at hc
      rw [kind_of_name hv, cells_areCells_back cells hc, ← this.2]
termination_by structural n
theorem areNodes_back {bits : Nat} (ns : List Node) {room : Nat} {ns' : List Node}
    (h : JDoc.AreNodes bits room (Json.toDocs (rowToJson ns)) ns') : ns' = ns := by
  cases ns with
  | nil => rw [rowToJson, Json.toDocs] at h; cases h; rfl
  | cons n ns =>
    rw [rowToJson, Json.toDocs] at h
    cases h with
    | cons h1 h2 => rw [Node.isNode_back n h1, areNodes_back ns h2]
termination_by structural ns
theorem cells_areCells_back {bits : Nat} (rs : List (List Node)) {room : Nat} {rs' : List Row}
    (h : JDoc.AreCells bits room (Json.toDocs (cellsToJson rs)) rs') : rs' = rs := by
  cases rs with
  | nil => rw [cellsToJson, Json.toDocs] at h; cases h; rfl
  | cons r rs =>
    rw [cellsToJson, Json.toDocs] at h
    cases h with
    | @cons room d ds values row rows h1 h2 h3 =>
      simp only [Json.toDoc, Json.toMembers] at h1
      have := (record1_obj _ _).unique h1
      simp only [JDoc.arr.injEq] at this
      rw [← this] at h2
      rw [areNodes_back r h2, cells_areCells_back rs h3]
termination_by structural rs
end

end Aftermath
