import Verif.Props.Render
import Verif.Props.Names

/-! # C57: when the renderer can be made, for any map of names -/

namespace Aftermath

/-- The paths that the renderer asks for, with what it makes of them. -/
def askedPaths : List (PathId × RKind) :=
  rendererTable.flatMap fun e => e.2.1.map fun n => ([e.1.toList, n.toList], e.2.2)

/-- The numbers that the map has for these paths, in this order. -/
def askedIds (names : List (Str × Nat)) : List (Nat × RKind) :=
  askedPaths.filterMap fun p => (hashGet names (joinPath p.1)).map fun id => (id, p.2)

private theorem foldlM_flat {names : List (Str × Nat)} : ∀ (table : List (String × List String × RKind))
    (rs : Renderers), table.foldlM (addRenderers names) rs =
      (table.flatMap fun e => e.2.1.map fun n => ([e.1.toList, n.toList], e.2.2)).foldlM
        (fun rs (p : PathId × RKind) => addRenderer names p.2 rs p.1) rs
  | [], _ => rfl
  | e :: table, rs => by
    rw [List.foldlM_cons, List.flatMap_cons, List.foldlM_append, List.foldlM_map, addRenderers]
    congr 1
    funext rs
    exact foldlM_flat table rs

private theorem foldlM_ids {names : List (Str × Nat)} : ∀ (l : List (PathId × RKind)) (rs R : Renderers),
    l.foldlM (fun rs (p : PathId × RKind) => addRenderer names p.2 rs p.1) rs = .ok R ↔
      ((l.filterMap fun p => (hashGet names (joinPath p.1)).map fun id => (id, p.2)).map Prod.fst).Nodup ∧
      (∀ id ∈ (l.filterMap fun p => (hashGet names (joinPath p.1)).map fun id => (id, p.2)).map Prod.fst,
        hashGet rs id = none) ∧
      R = (l.filterMap fun p => (hashGet names (joinPath p.1)).map fun id => (id, p.2)).foldl
        (fun rs e => hashInsert rs e.1 e.2) rs
  | [], rs, R => by
    simp only [List.foldlM_nil, List.filterMap_nil, List.map_nil, List.nodup_nil, List.foldl_nil, true_and]
    constructor
    · intro h
      cases h
      exact ⟨nofun, rfl⟩
    · rintro ⟨-, rfl⟩
      rfl
  | (p, k) :: l, rs, R => by
    rw [List.foldlM_cons, List.filterMap_cons]
    cases hp : hashGet names (joinPath p) with
    | none =>
      have hstep : addRenderer names k rs p = .ok rs := by simp only [addRenderer, hp]
      simp only [hstep, M.ok_bind, Option.map_none]
      exact foldlM_ids l rs R
    | some id =>
      have hstep : addRenderer names k rs p =
          (massert (hashGet rs id).isNone >>= fun _ => .ok (hashInsert rs id k)) := by
        simp only [addRenderer, hp]
      simp only [hstep, Option.map_some, List.map_cons, List.nodup_cons, List.foldl_cons,
        List.forall_mem_cons]
      cases hr : hashGet rs id with
      | some v => simp [M.error_bind]
      | none =>
        simp only [Option.isNone_none, massert_true, M.ok_bind, true_and]
        rw [foldlM_ids l]
        constructor
        · rintro ⟨h1, h2, h3⟩
          refine ⟨⟨fun hm => ?_, h1⟩, fun i hi => ?_, h3⟩
          · have := h2 id hm
            rw [hashGet_insert, if_pos rfl] at this
            cases this
          · have := h2 i hi
            rw [hashGet_insert] at this
            split at this
            · cases this
            · exact this
        · rintro ⟨⟨h0, h1⟩, h2, h3⟩
          refine ⟨h1, fun i hi => ?_, h3⟩
          rw [hashGet_insert, if_neg]
          · exact h2 i hi
          · rintro rfl
            exact h0 hi

private theorem get_inserted : ∀ (l : List (Nat × RKind)) (rs : Renderers), (l.map Prod.fst).Nodup →
    ∀ i, hashGet (l.foldl (fun rs e => hashInsert rs e.1 e.2) rs) i =
      (hashGet l i).or (hashGet rs i)
  | [], _, _, _ => rfl
  | (id, k) :: l, rs, hn, i => by
    rw [List.map_cons, List.nodup_cons] at hn
    rw [List.foldl_cons, get_inserted l _ hn.2 i, hashGet_insert]
    by_cases h : id = i
    · subst h
      have h0 : hashGet l id = none := by
        cases hg : hashGet l id with
        | none => rfl
        | some v => exact absurd (List.mem_map.2 ⟨_, hashGet_pair hg, rfl⟩) hn.1
      simp [hashGet, h0]
    · simp [hashGet, h]

private theorem newRenderer_iff (names : List (Str × Nat)) (R : Renderers) : newRenderer names = .ok R ↔
    ((askedIds names).map Prod.fst).Nodup ∧ (∀ e ∈ names, (hashGet R e.2).isSome = true) ∧
      R = (askedIds names).foldl (fun rs e => hashInsert rs e.1 e.2) [] := by
  rw [newRenderer, foldlM_flat]
  constructor
  · intro h
    obtain ⟨rs, h1, h⟩ := M.bind_eq_ok.1 h
    obtain ⟨h3, h4⟩ := massert_bind.1 h
    cases h4
    obtain ⟨h5, -, h6⟩ := (foldlM_ids _ _ _).1 h1
    exact ⟨h5, List.all_eq_true.1 h3, h6⟩
  · rintro ⟨h5, h3, h6⟩
    have h1 := (foldlM_ids (names := names) askedPaths [] R).2 ⟨h5, fun _ _ => rfl, h6⟩
    exact M.bind_eq_ok.2 ⟨R, h1, massert_bind.2 ⟨List.all_eq_true.2 h3, rfl⟩⟩

private theorem asked_get {names : List (Str × Nat)} (h : ((askedIds names).map Prod.fst).Nodup) (i : Nat) :
    hashGet ((askedIds names).foldl (fun rs e => hashInsert rs e.1 e.2) []) i = hashGet (askedIds names) i :=
  (get_inserted _ [] h i).trans Option.or_none

private theorem get_isSome : ∀ {l : List (Nat × RKind)} {i : Nat},
    (hashGet l i).isSome = true ↔ i ∈ l.map Prod.fst
  | [], i => by simp [hashGet]
  | (j, k) :: l, i => by
    rw [hashGet, List.map_cons, List.mem_cons]
    split
    · rename_i h
      simp [h]
    · rename_i h
      rw [get_isSome]
      constructor
      · exact .inr
      · rintro (h1 | h1)
        · exact absurd h1.symm h
        · exact h1

/-- **C57**, for any map of names: the renderer can be made exactly if no number is asked for twice and
every number of the map is asked for. Otherwise the assertions of the constructor fail. -/
theorem C57_made (names : List (Str × Nat)) : (∃ R, newRenderer names = .ok R) ↔
    ((askedIds names).map Prod.fst).Nodup ∧ ∀ e ∈ names, e.2 ∈ (askedIds names).map Prod.fst := by
  constructor
  · rintro ⟨R, h⟩
    obtain ⟨h1, h2, rfl⟩ := (newRenderer_iff names R).1 h
    refine ⟨h1, fun e he => get_isSome.1 ?_⟩
    rw [← asked_get h1]
    exact h2 e he
  · rintro ⟨h1, h2⟩
    refine ⟨_, (newRenderer_iff names _).2 ⟨h1, fun e he => ?_, rfl⟩⟩
    rw [asked_get h1]
    exact get_isSome.2 (h2 e he)

/-- **C57**: for every number it then makes what is said for the path with this number, and for other
numbers there is nothing. -/
theorem C57_makes {names : List (Str × Nat)} {R : Renderers} (h : newRenderer names = .ok R) (i : Nat) :
    hashGet R i = hashGet (askedIds names) i := by
  obtain ⟨h1, -, rfl⟩ := (newRenderer_iff names R).1 h
  exact asked_get h1 i

private theorem container_two {R : Renderers} {o : ROpts} {tag : Tag} {cs : List SNode} {es : List RElem}
    (ht : tag = .msup ∨ tag = .msub) (h : renderContainer R o tag cs = .ok es) : es.length = 2 := by
  cases cs with
  | nil => simp [renderContainer] at h
  | cons c cs =>
    rw [renderContainer] at h
    obtain ⟨e, -, h⟩ := M.bind_eq_ok.1 h
    obtain ⟨es', -, h⟩ := M.bind_eq_ok.1 h
    obtain ⟨h1, h2⟩ := massert_bind.1 h
    cases h2
    rcases ht with rfl | rfl <;> simpa [childrenCountOk] using h1

/-- **C57**: whatever the tree is, a fraction, a root or a script that is shown has exactly two parts, as
MathML asks for. -/
theorem C57_two {R : Renderers} {ri ri' : Option RowIndex} {o : ROpts} {t t' : SNode} {k : EKind} {es : List RElem}
    (h : render R ri o t = .ok (.mk k t' ri' es))
    (hk : k = .rows .mfrac ∨ k = .root .mroot ∨ k = .container .msup ∨ k = .container .msub) : es.length = 2 := by
  cases t with
  | children n lo hi cs =>
    rw [render] at h
    split at h
    · obtain ⟨-, h⟩ := massert_bind.1 h
      obtain ⟨-, h⟩ := massert_bind.1 h
      cases h
      simp at hk
    · obtain ⟨-, h⟩ := massert_bind.1 h
      obtain ⟨-, h⟩ := massert_bind.1 h
      cases h
      simp at hk
    iterate 4
      · obtain ⟨e, -, h⟩ := M.bind_eq_ok.1 h
        cases h
        simp at hk
    · obtain ⟨c, -, h⟩ := M.bind_eq_ok.1 h
      obtain ⟨-, h⟩ := massert_bind.1 h
      obtain ⟨e, he, h⟩ := M.bind_eq_ok.1 h
      cases h
      exact container_two (.inl rfl) he
    · obtain ⟨c, -, h⟩ := M.bind_eq_ok.1 h
      obtain ⟨-, h⟩ := massert_bind.1 h
      obtain ⟨e, he, h⟩ := M.bind_eq_ok.1 h
      cases h
      exact container_two (.inr rfl) he
    · cases h
  | leaf n lo hi ty ss =>
    rw [render] at h
    split at h <;> cases h <;> simp at hk
  | newRows n lo hi ts w =>
    rw [render] at h
    split at h
    · split at h
      · cases h
      · obtain ⟨-, -, h⟩ := rowsAsserts_bind.1 h
        obtain ⟨e, -, h⟩ := M.bind_eq_ok.1 h
        obtain ⟨-, h⟩ := massert_bind.1 h
        cases h
        simp at hk
    · obtain ⟨-, -, h⟩ := rowsAsserts_bind.1 h
      obtain ⟨e, -, h⟩ := M.bind_eq_ok.1 h
      obtain ⟨h1, h⟩ := massert_bind.1 h
      cases h
      simpa [childrenCountOk] using h1
    · obtain ⟨-, -, h⟩ := rowsAsserts_bind.1 h
      obtain ⟨e, -, h⟩ := M.bind_eq_ok.1 h
      obtain ⟨h1, h⟩ := massert_bind.1 h
      cases h
      simpa [childrenCountOk] using h1
    · obtain ⟨-, -, h⟩ := rowsAsserts_bind.1 h
      obtain ⟨e, -, h⟩ := M.bind_eq_ok.1 h
      obtain ⟨c, -, h⟩ := M.bind_eq_ok.1 h
      obtain ⟨-, h⟩ := massert_bind.1 h
      obtain ⟨-, h⟩ := massert_bind.1 h
      cases h
      simp at hk
    · cases h

/-! ## Examples -/

/-- With one name it can be made. It cannot if a name is unknown to it, or if two names have the same number. -/
example : (newRenderer [("BuiltIn::Row".toList, 7)]).isOk = false ∧
    (newRenderer [("Core::Variable".toList, 7)]).isOk = true ∧
    (newRenderer [("Core::Variable".toList, 7), ("No::Such".toList, 8)]).isOk = false ∧
    (newRenderer [("Core::Variable".toList, 7), ("Arithmetic::Add".toList, 7)]).isOk = false := by
  refine ⟨?_, ?_, ?_, ?_⟩ <;> decide +kernel

end Aftermath
