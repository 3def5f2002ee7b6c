import Verif.Proof.Json
import Verif.Proof.Basic
import Verif.Spec.Clipboard

/-! # Nodes as JSON values -/

namespace Aftermath

/-! ## The documents of nodes -/

theorem variantOf_name (v : Variant) : variantOf (variantName v) = some v := by
  cases v <;> decide

theorem variantName_kind (v : Variant) : IsKind (.str (some (variantName v))) v := by
  obtain ⟨name, hn, he⟩ := variantOf_iff.1 (variantOf_name v)
  exact ⟨name, hn, Or.inl (by rw [he])⟩

theorem record1_obj (k : String) (x : JDoc) : Record1 (.obj [(some k.toList, x)]) k x :=
  Or.inr ⟨_, rfl, by simp, [], [], rfl, by simp⟩

theorem record2_obj {k k' : String} (h : k.toList ≠ k'.toList) (x y : JDoc) :
    Record2 (.obj [(some k.toList, x), (some k'.toList, y)]) k k' x y := by
  refine Or.inr ⟨_, rfl, by simp, ⟨[], [(some k'.toList, y)], rfl, ?_⟩,
    ⟨[(some k.toList, x)], [], rfl, ?_⟩⟩
  · intro f hf
    simp only [List.nil_append, List.mem_singleton] at hf
    subst hf
    simpa using fun h' => h h'.symm
  · intro f hf
    simp only [List.append_nil, List.mem_singleton] at hf
    subst hf
    simpa using h

mutual
/-- Nodes are described by what is written for them if there is room. -/
theorem Node.toJson_isNode {bits : Nat} (n : Node) (room : Nat) (hr : 6 * n.nesting + 1 ≤ room)
    (hw : n.widthsFit bits) : JDoc.IsNode bits room n.toJson.toDoc n := by
  cases n with
  | symbol s =>
    obtain ⟨r, rfl⟩ : ∃ r, room = r + 1 := ⟨room - 1, by omega⟩
    rw [Node.toJson, Json.toDoc, Json.toMembers, Json.toMembers, Json.toDoc]
    exact .symbol s
  | container v cells w =>
    rw [Node.nesting] at hr
    rw [Node.widthsFit] at hw
    obtain ⟨r, rfl⟩ : ∃ r, room = r + 4 := ⟨room - 4, by omega⟩
    have h := cellsToJson_areCells cells r (by omega) hw.2
    rw [Node.toJson]
    simp only [Json.toDoc, Json.toMembers, Json.toDocs]
    exact .container (variantName_kind v) (record2_obj (by decide) _ _) hw.1 h
termination_by structural n
theorem rowToJson_areNodes {bits : Nat} (ns : List Node) (room : Nat)
    (hr : 6 * Aftermath.nesting ns + 1 ≤ room) (hw : widthsFit bits ns) :
    JDoc.AreNodes bits room (Json.toDocs (rowToJson ns)) ns := by
  cases ns with
  | nil => rw [rowToJson, Json.toDocs]; exact .nil
  | cons n ns =>
    rw [nesting] at hr
    rw [widthsFit] at hw
    rw [rowToJson, Json.toDocs]
    exact .cons (Node.toJson_isNode n room (by omega) hw.1)
      (rowToJson_areNodes ns room (by omega) hw.2)
termination_by structural ns
theorem cellsToJson_areCells {bits : Nat} (rs : List (List Node)) (room : Nat)
    (hr : 6 * cellsNesting rs + 3 ≤ room) (hw : cellsWidthsFit bits rs) :
    JDoc.AreCells bits room (Json.toDocs (cellsToJson rs)) rs := by
  cases rs with
  | nil => rw [cellsToJson, Json.toDocs]; exact .nil
  | cons r rs =>
    rw [cellsNesting] at hr
    rw [cellsWidthsFit] at hw
    obtain ⟨e, rfl⟩ : ∃ e, room = e + 2 := ⟨room - 2, by omega⟩
    have h1 := rowToJson_areNodes r e (by omega) hw.1
    have h2 := cellsToJson_areCells rs (e + 2) (by omega) hw.2
    rw [cellsToJson, Json.toDocs]
    simp only [Json.toDoc, Json.toMembers]
    exact .cons (record1_obj _ _) h1 h2
termination_by structural rs
end

theorem IsMember.unique {l : List (Option Str × JDoc)} {k : String} {x y : JDoc}
    (h : IsMember l k x) (h' : IsMember l k y) : x = y := by
  have := fieldOf_iff.2 h
  rw [fieldOf_iff.2 h'] at this
  cases this
  rfl

theorem Record1.unique {d : JDoc} {k : String} {x y : JDoc} (h : Record1 d k x)
    (h' : Record1 d k y) : x = y := by
  rcases h with rfl | ⟨l, rfl, -, h⟩
  · rcases h' with h' | ⟨l, h', -⟩
    · simpa using h'
    · cases h'
  · rcases h' with h' | ⟨l', h', -, h2⟩
    · cases h'
    · cases h'; exact h.unique h2

theorem Record2.unique {d : JDoc} {k k' : String} {x x' y y' : JDoc} (h : Record2 d k k' x y)
    (h' : Record2 d k k' x' y') : x = x' ∧ y = y' := by
  rcases h with rfl | ⟨l, rfl, -, h1, h2⟩
  · rcases h' with h' | ⟨l, h', -⟩
    · simpa using h'
    · cases h'
  · rcases h' with h' | ⟨l', h', -, h3, h4⟩
    · cases h'
    · cases h'; exact ⟨h1.unique h3, h2.unique h4⟩

mutual
/-- Nodes that are described by what is written for well-formed nodes have room. -/
theorem Node.room_of_isNode {bits : Nat} (n : Node) (hwf : n.wf = true) {room : Nat} {n' : Node}
    (h : JDoc.IsNode bits room n.toJson.toDoc n') : 6 * n.nesting ≤ room := by
  cases n with
  | symbol s => rw [Node.nesting]; omega
  | container v cells w =>
    rw [Node.wf, Bool.and_eq_true] at hwf
    have hne : cells ≠ [] := by
      rintro rfl
      have := hwf.1
      cases v <;> simp [shapeOk] at this
    rw [Node.toJson] at h
    simp only [Json.toDoc, Json.toMembers, Json.toDocs] at h
    rw [Node.nesting]
    generalize hd : JDoc.obj _ = d at h
    cases h with
    | symbol s => simp at hd
    | @container r kind grid values v' cells' w' hv hg hw hc =>
      simp only [JDoc.obj.injEq, List.cons.injEq, Prod.mk.injEq, JDoc.arr.injEq, and_true,
        true_and] at hd
      obtain ⟨rfl, rfl⟩ := hd
      have := (record2_obj (by decide) _ _).unique hg
      simp only [JDoc.arr.injEq] at this
      rw [← this.1] at hc
      have := cells_room_of_areCells cells hwf.2 hne hc
      omega
termination_by structural n
theorem room_of_areNodes {bits : Nat} (ns : List Node) (hwf : rowWf ns = true) {room : Nat}
    {ns' : List Node} (h : JDoc.AreNodes bits room (Json.toDocs (rowToJson ns)) ns') :
    6 * Aftermath.nesting ns ≤ room := by
  cases ns with
  | nil => rw [nesting]; omega
  | cons n ns =>
    rw [rowWf, Bool.and_eq_true] at hwf
    rw [rowToJson, Json.toDocs] at h
    rw [nesting]
    cases h with
    | cons h1 h2 =>
      have := Node.room_of_isNode n hwf.1 h1
      have := room_of_areNodes ns hwf.2 h2
      omega
termination_by structural ns
theorem cells_room_of_areCells {bits : Nat} (rs : List (List Node)) (hwf : cellsWf rs = true)
    (hne : rs ≠ []) {room : Nat} {rs' : List Row}
    (h : JDoc.AreCells bits room (Json.toDocs (cellsToJson rs)) rs') :
    6 * cellsNesting rs + 2 ≤ room := by
  cases rs with
  | nil => exact absurd rfl hne
  | cons r rs =>
    rw [cellsWf, Bool.and_eq_true] at hwf
    rw [cellsToJson, Json.toDocs] at h
    rw [cellsNesting]
    cases h with
    | @cons room d ds values row rows h1 h2 h3 =>
      simp only [Json.toDoc, Json.toMembers] at h1
      have := (record1_obj _ _).unique h1
      simp only [JDoc.arr.injEq] at this
      rw [← this] at h2
      have := room_of_areNodes r hwf.1 h2
      cases rs with
      | nil => simp only [cellsNesting]; omega
      | cons x xs =>
        have := cells_room_of_areCells (x :: xs) hwf.2 (by simp) h3
        omega
termination_by structural rs
end

/-! ## Injectivity -/

theorem variantName_inj {v v' : Variant} (h : variantName v = variantName v') : v = v' := by
  have := variantOf_name v
  rw [h, variantOf_name] at this
  cases this
  rfl

mutual
theorem Node.toJson_inj (a b : Node) (h : a.toJson = b.toJson) : a = b := by
  cases a with
  | symbol s =>
    cases b with
    | symbol t => simp [Node.toJson] at h; rw [h]
    | container v cells w => simp [Node.toJson] at h
  | container v cells w =>
    cases b with
    | symbol t => simp [Node.toJson] at h
    | container v' cells' w' =>
      rw [Node.toJson, Node.toJson] at h
      simp only [Json.obj.injEq, Json.arr.injEq, List.cons.injEq, Prod.mk.injEq, Json.str.injEq,
        Json.num.injEq, and_true, true_and] at h
      rw [variantName_inj h.1, cellsToJson_inj cells cells' h.2.1, h.2.2]
termination_by structural a
theorem rowToJson_inj (a b : List Node) (h : rowToJson a = rowToJson b) : a = b := by
  cases a with
  | nil => cases b <;> simp [rowToJson] at h ⊢
  | cons x xs =>
    cases b with
    | nil => simp [rowToJson] at h
    | cons y ys =>
      rw [rowToJson, rowToJson, List.cons.injEq] at h
      rw [Node.toJson_inj x y h.1, rowToJson_inj xs ys h.2]
termination_by structural a
theorem cellsToJson_inj (a b : List (List Node)) (h : cellsToJson a = cellsToJson b) : a = b := by
  cases a with
  | nil => cases b <;> simp [cellsToJson] at h ⊢
  | cons x xs =>
    cases b with
    | nil => simp [cellsToJson] at h
    | cons y ys =>
      rw [cellsToJson, cellsToJson, List.cons.injEq] at h
      simp only [Json.obj.injEq, Json.arr.injEq, List.cons.injEq, Prod.mk.injEq,
        and_true, true_and] at h
      rw [rowToJson_inj x y h.1, cellsToJson_inj xs ys h.2]
termination_by structural a
end

/-! ## Widths -/

mutual
theorem Node.widthsFit_of_fits {bits : Nat} (n : Node) (hwf : n.wf = true)
    (hf : n.fits bits = true) : n.widthsFit bits := by
  cases n with
  | symbol s => exact trivial
  | container v cells w =>
    rw [Node.wf, Bool.and_eq_true] at hwf
    rw [Node.fits, Bool.and_eq_true, decide_eq_true_eq] at hf
    refine ⟨?_, cellsWidthsFit_of_fits cells hwf.2 hf.2⟩
    have hs := hwf.1
    have : w ≤ cells.length := by
      cases v <;> simp [shapeOk] at hs
      · omega
      · omega
      · omega
      · omega
      · exact Nat.le_of_dvd hs.1.1 (Nat.dvd_of_mod_eq_zero hs.2)
    omega
termination_by structural n
theorem widthsFit_of_fits {bits : Nat} (ns : List Node) (hwf : rowWf ns = true)
    (hf : rowFits bits ns = true) : widthsFit bits ns := by
  cases ns with
  | nil => exact trivial
  | cons n ns =>
    rw [rowWf, Bool.and_eq_true] at hwf
    rw [rowFits, Bool.and_eq_true] at hf
    exact ⟨Node.widthsFit_of_fits n hwf.1 hf.1, widthsFit_of_fits ns hwf.2 hf.2⟩
termination_by structural ns
theorem cellsWidthsFit_of_fits {bits : Nat} (rs : List (List Node)) (hwf : cellsWf rs = true)
    (hf : cellsFit bits rs = true) : cellsWidthsFit bits rs := by
  cases rs with
  | nil => exact trivial
  | cons n ns =>
    rw [cellsWf, Bool.and_eq_true] at hwf
    rw [cellsFit, Bool.and_eq_true] at hf
    exact ⟨widthsFit_of_fits n hwf.1 hf.1, cellsWidthsFit_of_fits ns hwf.2 hf.2⟩
termination_by structural rs
end

mutual
/-- Described nodes have widths that fit. -/
theorem JDoc.IsNode.widths {bits room : Nat} {d : JDoc} {n : Node} (h : JDoc.IsNode bits room d n) :
    n.widthsFit bits := by
  cases h with
  | symbol s => exact trivial
  | container hv hg hw hc => exact ⟨hw, hc.widths⟩
theorem JDoc.AreNodes.widths {bits room : Nat} {ds : List JDoc} {ns : List Node}
    (h : JDoc.AreNodes bits room ds ns) : widthsFit bits ns := by
  cases h with
  | nil => exact trivial
  | cons h hs => exact ⟨h.widths, hs.widths⟩
theorem JDoc.AreCells.widths {bits room : Nat} {ds : List JDoc} {rs : List Row}
    (h : JDoc.AreCells bits room ds rs) : cellsWidthsFit bits rs := by
  cases h with
  | nil => exact trivial
  | cons h hr hs => exact ⟨hr.widths, hs.widths⟩
end

/-! ## Whole texts -/

theorem serializeNodes_written (nodes : List Node) :
    JDoc.Written (.obj [(some "version".toList, .nat 1),
      (some "data".toList, .arr (Json.toDocs (rowToJson nodes)))]) (serializeNodes nodes) := by
  have := (Json.obj [("version".toList, .num 1), ("data".toList, .arr (rowToJson nodes))]).written
  simp only [Json.toDoc, Json.toMembers] at this
  exact this

end Aftermath
