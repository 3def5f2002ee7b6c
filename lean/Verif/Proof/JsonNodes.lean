import Verif.Proof.JsonValues

/-! # The reader reads exactly the described nodes -/

namespace Aftermath

theorem fieldOf_iff {k : String} {l : List (Option Str × JDoc)} {x : JDoc} :
    fieldOf k.toList l = some x ↔ IsMember l k x := by
  unfold fieldOf IsMember
  constructor
  · intro h
    split at h
    · rename_i k' y hl
      cases h
      obtain ⟨before, after, rfl, h1, h2, h3⟩ := List.filter_eq_cons_iff.1 hl
      simp only [decide_eq_true_eq] at h1 h2
      refine ⟨before, after, by rw [← h2], ?_⟩
      intro f hf
      rcases List.mem_append.1 hf with hf | hf
      · exact h1 f hf
      · have := List.filter_eq_nil_iff.1 h3 f hf
        simpa using this
    · cases h
  · rintro ⟨before, after, rfl, h⟩
    have h1 : before.filter (fun f => decide (f.1 = some k.toList)) = [] := by
      rw [List.filter_eq_nil_iff]
      intro f hf
      simpa using h f (by simp [hf])
    have h2 : after.filter (fun f => decide (f.1 = some k.toList)) = [] := by
      rw [List.filter_eq_nil_iff]
      intro f hf
      simpa using h f (by simp [hf])
    rw [List.filter_append, List.filter_cons, h1, h2]
    simp

theorem all_isSome {l : List (Option Str × JDoc)} :
    (l.all fun f => f.1.isSome) = true ↔ ∀ f ∈ l, f.1 ≠ none := by
  simp only [List.all_eq_true, Option.isSome_iff_ne_none]

theorem twoFields_iff {depth : Nat} {a b : String} {d x y : JDoc} :
    twoFields depth a.toList b.toList d = some (x, y) ↔ 1 < depth ∧ Record2 d a b x y := by
  unfold twoFields Record2
  constructor
  · intro h
    split at h
    · rename_i l
      split at h
      · cases h
      split at h
      · rename_i hd ha
        simp only [Option.bind_eq_bind, Option.bind_eq_some_iff] at h
        obtain ⟨x', hx, y', hy, h⟩ := h
        cases h
        exact ⟨by omega, Or.inr ⟨l, rfl, all_isSome.1 ha, fieldOf_iff.1 hx, fieldOf_iff.1 hy⟩⟩
      · cases h
    · split at h
      · cases h
      · cases h
        exact ⟨by omega, Or.inl rfl⟩
    · cases h
  · rintro ⟨hd, rfl | ⟨l, rfl, ha, hx, hy⟩⟩
    · simp only
      rw [if_neg (by omega)]
    · simp only
      rw [if_neg (by omega), if_pos (all_isSome.2 ha), fieldOf_iff.2 hx, fieldOf_iff.2 hy]
      rfl

theorem oneField_iff {depth : Nat} {a : String} {d x : JDoc} :
    oneField depth a.toList d = some x ↔ 1 < depth ∧ Record1 d a x := by
  unfold oneField Record1
  constructor
  · intro h
    split at h
    · rename_i l
      split at h
      · cases h
      split at h
      · rename_i hd ha
        exact ⟨by omega, Or.inr ⟨l, rfl, all_isSome.1 ha, fieldOf_iff.1 h⟩⟩
      · cases h
    · split at h
      · cases h
      · cases h
        exact ⟨by omega, Or.inl rfl⟩
    · cases h
  · rintro ⟨hd, rfl | ⟨l, rfl, ha, hx⟩⟩
    · simp only
      rw [if_neg (by omega)]
    · simp only
      rw [if_neg (by omega), if_pos (all_isSome.2 ha), fieldOf_iff.2 hx]

theorem elemsOf_iff {depth : Nat} {d : JDoc} {l : List JDoc} :
    elemsOf depth d = some l ↔ 1 < depth ∧ d = .arr l := by
  unfold elemsOf
  constructor
  · intro h
    split at h
    · split at h
      · cases h
      · cases h; exact ⟨by omega, rfl⟩
    · cases h
  · rintro ⟨hd, rfl⟩
    simp only
    rw [if_neg (by omega)]

theorem natFromDoc_iff {bits : Nat} {d : JDoc} {n : Nat} :
    natFromDoc bits d = some n ↔ d = .nat n ∧ n < 2 ^ bits := by
  unfold natFromDoc
  constructor
  · intro h
    split at h
    · split at h
      · cases h; exact ⟨rfl, by assumption⟩
      · cases h
    · cases h
  · rintro ⟨rfl, h⟩
    simp only
    rw [if_pos h]

theorem variantOf_iff {s : Str} {v : Variant} :
    variantOf s = some v ↔ ∃ name, (v, name) ∈ kindNames ∧ s = name.toList := by
  unfold variantOf kindNames
  constructor
  · intro h
    repeat' split at h
    all_goals first
      | (cases h; exact ⟨_, by decide, by assumption⟩)
      | (cases h; exact ⟨"Fraction", by decide, by assumption⟩)
      | (cases h; exact ⟨"Root", by decide, by assumption⟩)
      | (cases h; exact ⟨"Sup", by decide, by assumption⟩)
      | (cases h; exact ⟨"Sub", by decide, by assumption⟩)
      | (cases h; exact ⟨"Table", by decide, by assumption⟩)
      | (cases h; done)
  · rintro ⟨name, hn, rfl⟩
    simp only [List.mem_cons, Prod.mk.injEq, List.not_mem_nil, or_false] at hn
    rcases hn with ⟨rfl, rfl⟩ | ⟨rfl, rfl⟩ | ⟨rfl, rfl⟩ | ⟨rfl, rfl⟩ | ⟨rfl, rfl⟩ <;> decide

theorem variantFromDoc_iff {depth : Nat} {d : JDoc} {v : Variant} (hd : 1 < depth) :
    variantFromDoc depth d = some v ↔ IsKind d v := by
  unfold variantFromDoc IsKind
  constructor
  · intro h
    split at h
    · obtain ⟨name, hn, rfl⟩ := variantOf_iff.1 h
      exact ⟨name, hn, Or.inl rfl⟩
    · split at h
      · cases h
      · obtain ⟨name, hn, rfl⟩ := variantOf_iff.1 h
        exact ⟨name, hn, Or.inr rfl⟩
    · cases h
  · rintro ⟨name, hn, rfl | rfl⟩
    · exact variantOf_iff.2 ⟨name, hn, rfl⟩
    · simp only
      rw [if_neg (by omega)]
      exact variantOf_iff.2 ⟨name, hn, rfl⟩

theorem readAll_nil {α β : Type} (f : α → Option β) : readAll f [] = some [] := rfl

theorem readAll_cons {α β : Type} {f : α → Option β} {x : α} {xs : List α} {l : List β} :
    readAll f (x :: xs) = some l ↔ ∃ y ys, f x = some y ∧ readAll f xs = some ys ∧ l = y :: ys := by
  rw [readAll]
  simp only [Option.bind_eq_bind, Option.bind_eq_some_iff, Option.some.injEq]
  constructor
  · rintro ⟨y, h1, ys, h2, rfl⟩; exact ⟨y, ys, h1, h2, rfl⟩
  · rintro ⟨y, ys, h1, h2, rfl⟩; exact ⟨y, h1, ys, h2, rfl⟩

/-- The function reading one cell. -/
def cellFromDoc (cfg : Cfg) (fuel depth : Nat) (cell : JDoc) : Option Row := do
  let vals ← oneField (depth - 4) "values".toList cell
  let row ← elemsOf (depth - 5) vals
  readAll (nodeFromDoc cfg fuel (depth - 6)) row

theorem cellFromDoc_iff {cfg : Cfg} {fuel depth : Nat} {cell : JDoc} {row : Row} :
    cellFromDoc cfg fuel depth cell = some row ↔ ∃ values, 6 < depth ∧
      Record1 cell "values" (.arr values) ∧
      readAll (nodeFromDoc cfg fuel (depth - 6)) values = some row := by
  unfold cellFromDoc
  simp only [Option.bind_eq_bind, Option.bind_eq_some_iff, oneField_iff, elemsOf_iff]
  constructor
  · rintro ⟨vals, ⟨-, h1⟩, l, ⟨h2, rfl⟩, h3⟩
    exact ⟨l, by omega, h1, h3⟩
  · rintro ⟨l, h1, h2, h3⟩
    exact ⟨_, ⟨by omega, h2⟩, l, ⟨by omega, rfl⟩, h3⟩

/-- Reading a container. -/
theorem nodeFromDoc_container {cfg : Cfg} {fuel depth : Nat} {x : JDoc} {n : Node} :
    nodeFromDoc cfg (fuel + 1) depth (.obj [(some "Container".toList, x)]) = some n ↔
      ∃ kind grid values v cells w, 4 < depth ∧ x = .arr [kind, grid] ∧ IsKind kind v ∧
        Record2 grid "values" "width" (.arr values) (.nat w) ∧ w < 2 ^ cfg.bits ∧
        readAll (cellFromDoc cfg fuel depth) values = some cells ∧ n = .container v cells w := by
  constructor
  · intro h
    unfold nodeFromDoc at h
    split at h
    · cases h
    rw [if_neg (by decide), if_pos rfl] at h
    split at h
    · rename_i kind grid
      split at h
      · cases h
      rename_i h1 h2
      simp only [Option.bind_eq_bind, Option.bind_eq_some_iff, Prod.exists, twoFields_iff,
        elemsOf_iff, natFromDoc_iff, Option.some.injEq] at h
      obtain ⟨v, hv, vals, wd, ⟨h3, hg⟩, values, ⟨h4, rfl⟩, cells, hc, w, ⟨rfl, hw⟩, rfl⟩ := h
      exact ⟨kind, grid, values, v, cells, w, by omega, rfl, (variantFromDoc_iff h3).1 hv, hg, hw,
        hc, rfl⟩
    · cases h
  · rintro ⟨kind, grid, values, v, cells, w, hd, rfl, hv, hg, hw, hc, rfl⟩
    unfold nodeFromDoc
    rw [if_neg (by omega), if_neg (by decide), if_pos rfl]
    simp only
    rw [if_neg (by omega)]
    simp only [Option.bind_eq_bind, Option.bind_eq_some_iff, Prod.exists, twoFields_iff,
      elemsOf_iff, natFromDoc_iff, Option.some.injEq]
    exact ⟨v, (variantFromDoc_iff (by omega)).2 hv, _, _, ⟨by omega, hg⟩, values, ⟨by omega, rfl⟩,
      cells, hc, w, ⟨rfl, hw⟩, rfl⟩

/-- What is read is described. -/
theorem nodeFromDoc_some {cfg : Cfg} (fuel : Nat) : ∀ depth d n,
    nodeFromDoc cfg fuel depth d = some n → JDoc.IsNode cfg.bits (depth - 1) d n := by
  induction fuel with
  | zero => intro depth d n h; cases h
  | succ f ih =>
    intro depth d n h
    have nodes : ∀ depth ds ns, readAll (nodeFromDoc cfg f depth) ds = some ns →
        JDoc.AreNodes cfg.bits (depth - 1) ds ns := by
      intro depth ds
      induction ds with
      | nil => intro ns h; rw [readAll_nil] at h; cases h; exact .nil
      | cons d ds ihd =>
        intro ns h
        obtain ⟨n, ns', h1, h2, rfl⟩ := readAll_cons.1 h
        exact .cons (ih _ _ _ h1) (ihd _ h2)
    have cells : ∀ ds rs, readAll (cellFromDoc cfg f depth) ds = some rs →
        JDoc.AreCells cfg.bits (depth - 5) ds rs := by
      intro ds
      induction ds with
      | nil => intro ns h; rw [readAll_nil] at h; cases h; exact .nil
      | cons d ds ihd =>
        intro ns h
        obtain ⟨r, rs, h1, h2, rfl⟩ := readAll_cons.1 h
        obtain ⟨values, hd, hr, hv⟩ := cellFromDoc_iff.1 h1
        have hn := nodes _ _ _ hv
        have hrest := ihd _ h2
        obtain ⟨e, rfl⟩ : ∃ e, depth = e + 7 := ⟨depth - 7, by omega⟩
        exact .cons hr hn hrest
    cases d with
    | obj l =>
      match l, h with
      | [], h => unfold nodeFromDoc at h; cases h
      | [(none, x)], h => unfold nodeFromDoc at h; cases h
      | (_, _) :: _ :: _, h => simp [nodeFromDoc] at h
      | [(some k, x)], h =>
        by_cases hk : k = "Container".toList
        · subst hk
          obtain ⟨kind, grid, values, v, cs, w, hd, rfl, hv, hg, hw, hc, rfl⟩ :=
            nodeFromDoc_container.1 h
          have := cells _ _ hc
          obtain ⟨e, rfl⟩ : ∃ e, depth = e + 5 := ⟨depth - 5, by omega⟩
          exact .container hv hg hw this
        · unfold nodeFromDoc at h
          split at h
          · cases h
          split at h
          · rename_i hd hs
            subst hs
            split at h
            · cases h
              obtain ⟨e, rfl⟩ : ∃ e, depth = e + 2 := ⟨depth - 2, by omega⟩
              exact .symbol _
            · cases h
          · cases h
    | _ => unfold nodeFromDoc at h; cases h

mutual
theorem nodeFromDoc_of {cfg : Cfg} {room : Nat} {d : JDoc} {n : Node}
    (h : JDoc.IsNode cfg.bits room d n) (fuel : Nat) (hf : room < fuel) :
    nodeFromDoc cfg fuel (room + 1) d = some n := by
  obtain ⟨f, rfl⟩ : ∃ f, fuel = f + 1 := ⟨fuel - 1, by omega⟩
  cases h with
  | @symbol room s =>
    unfold nodeFromDoc
    rw [if_neg (by omega), if_pos rfl]
  | @container room kind grid values v cells w hv hg hw hc =>
    exact nodeFromDoc_container.2 ⟨kind, grid, values, v, cells, w, by omega, rfl, hv, hg, hw,
      cellsFromDoc_of hc f (by omega), rfl⟩
theorem rowFromDoc_of {cfg : Cfg} {room : Nat} {ds : List JDoc} {ns : List Node}
    (h : JDoc.AreNodes cfg.bits room ds ns) (fuel : Nat) (hf : room < fuel) :
    readAll (nodeFromDoc cfg fuel (room + 1)) ds = some ns := by
  cases h with
  | nil => rfl
  | cons h hs =>
    exact readAll_cons.2 ⟨_, _, nodeFromDoc_of h fuel hf, rowFromDoc_of hs fuel hf, rfl⟩
theorem cellsFromDoc_of {cfg : Cfg} {room : Nat} {ds : List JDoc} {rs : List Row}
    (h : JDoc.AreCells cfg.bits room ds rs) (fuel : Nat) (hf : room < fuel) :
    readAll (cellFromDoc cfg fuel (room + 5)) ds = some rs := by
  cases h with
  | nil => rfl
  | @cons room d ds values row rows h hr hs =>
    exact readAll_cons.2 ⟨_, _, cellFromDoc_iff.2 ⟨values, by omega, h,
      rowFromDoc_of hr fuel (by omega)⟩, cellsFromDoc_of hs fuel hf, rfl⟩
end

theorem rowFromDoc_some {cfg : Cfg} {fuel depth : Nat} {ds : List JDoc} {ns : List Node}
    (h : readAll (nodeFromDoc cfg fuel depth) ds = some ns) :
    JDoc.AreNodes cfg.bits (depth - 1) ds ns := by
  induction ds generalizing ns with
  | nil => rw [readAll_nil] at h; cases h; exact .nil
  | cons d ds ih =>
    obtain ⟨n, ns', h1, h2, rfl⟩ := readAll_cons.1 h
    exact .cons (nodeFromDoc_some _ _ _ _ h1) (ih h2)

/-- The reader reads exactly the described nodes. -/
theorem deserializeNodes_iff {cfg : Cfg} {s : Str} {nodes : List Node} :
    deserializeNodes cfg s = some nodes ↔ Describes cfg.bits s nodes := by
  unfold deserializeNodes Describes
  simp only [Option.bind_eq_bind, Option.bind_eq_some_iff, Prod.exists, parseJson_iff,
    twoFields_iff, natFromDoc_iff, elemsOf_iff]
  constructor
  · rintro ⟨d, hd, x, y, ⟨-, hr⟩, version, ⟨rfl, hv⟩, values, ⟨-, rfl⟩, hn⟩
    exact ⟨d, version, values, hd, hr, hv, rowFromDoc_some hn⟩
  · rintro ⟨d, version, values, hd, hr, hv, hn⟩
    exact ⟨d, hd, _, _, ⟨by decide, hr⟩, version, ⟨rfl, hv⟩, values, ⟨by decide, rfl⟩,
      rowFromDoc_of hn 128 (by decide)⟩

end Aftermath
