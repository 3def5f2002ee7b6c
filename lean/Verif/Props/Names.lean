import Verif.Model.Names
import Verif.Proof.Basic
import Mathlib.Data.List.Nodup
import Mathlib.Data.List.Dedup

/-! # C41: syntax node names and ids -/

namespace Aftermath

/-- Registering names one after the other, starting from an empty map: the ids handed out, and
the map at the end. -/
def registerAll (m : NameMap) : List PathId → List Nat × NameMap
  | [] => ([], m)
  | p :: ps =>
    let r := m.add p
    let rest := registerAll r.2 ps
    (r.1 :: rest.1, rest.2)

/-- The distinct names, in the order in which they were first seen. -/
def distinct (seen : List PathId) : List PathId → List PathId
  | [] => seen
  | p :: ps => if p ∈ seen then distinct seen ps else distinct (seen ++ [p]) ps

section Helpers

/-- The map that holds exactly the names `l`, with their places as ids. -/
structure Holds (m : NameMap) (l : List PathId) : Prop where
  nodup : l.Nodup
  length : m.values.length = l.length
  get : ∀ p, hashGet m.values p = if p ∈ l then some (l.idxOf p) else none
  getReverse : ∀ i, hashGet m.reverseValues i = l[i]?

theorem hashGet_insert {α β : Type} [DecidableEq α] (m : List (α × β)) (k k' : α) (v : β) :
    hashGet (hashInsert m k v) k' = if k = k' then some v else hashGet m k' := by
  induction m with
  | nil => simp [hashInsert, hashGet]
  | cons a as ih =>
    obtain ⟨a1, a2⟩ := a
    simp only [hashInsert]
    by_cases h : a1 = k
    · subst h
      by_cases h2 : a1 = k' <;> simp [hashGet, h2]
    · simp only [h, if_false, hashGet, ih]
      by_cases h2 : a1 = k'
      · subst h2
        rw [if_pos rfl, if_neg (fun e => h e.symm), if_pos rfl]
      · simp only [h2, if_false]

theorem length_insert {α β : Type} [DecidableEq α] (m : List (α × β)) (k : α) (v : β)
    (h : hashGet m k = none) : (hashInsert m k v).length = m.length + 1 := by
  induction m with
  | nil => rfl
  | cons a as ih =>
    obtain ⟨a1, a2⟩ := a
    simp only [hashGet] at h
    by_cases he : a1 = k
    · simp [he] at h
    · simp only [he, if_false] at h
      simp only [hashInsert, he, if_false, List.length_cons, ih h]

theorem Holds.empty : Holds NameMap.empty [] := by
  refine ⟨List.nodup_nil, rfl, fun p => rfl, fun i => by simp [NameMap.empty, hashGet]⟩

theorem Holds.add_old {m : NameMap} {l : List PathId} (h : Holds m l) {p : PathId} (hp : p ∈ l) :
    m.add p = (l.idxOf p, m) := by
  unfold NameMap.add
  rw [h.get p, if_pos hp]

theorem Holds.add_new {m : NameMap} {l : List PathId} (h : Holds m l) {p : PathId} (hp : p ∉ l)
    (hb : l.length < 4294967296) : (m.add p).1 = l.length ∧ Holds (m.add p).2 (l ++ [p]) := by
  have hg := h.get p
  rw [if_neg hp] at hg
  have hm : m.values.length % 4294967296 = l.length := by rw [h.length]; exact Nat.mod_eq_of_lt hb
  unfold NameMap.add
  simp only [hg, hm]
  refine ⟨trivial, List.nodup_append.2 ⟨h.nodup, by simp, ?_⟩, ?_, ?_, ?_⟩
  · intro a ha b hb
    simp only [List.mem_singleton] at hb
    rintro rfl
    exact hp (hb ▸ ha)
  · rw [length_insert _ _ _ hg, h.length, List.length_append]; rfl
  · intro q
    rw [hashGet_insert, h.get q]
    by_cases hq : p = q
    · subst hq
      simp [List.idxOf_append, hp]
    · by_cases hq2 : q ∈ l
      · simp [hq, hq2, List.idxOf_append]
      · simp [hq, hq2, Ne.symm hq]
  · intro i
    rw [hashGet_insert, h.getReverse i, List.getElem?_append]
    by_cases hi : l.length = i
    · subst hi; simp
    · simp only [hi, if_false]
      by_cases h2 : i < l.length
      · simp [h2]
      · have : l[i]? = none := List.getElem?_eq_none_iff.2 (by omega)
        rw [this, if_neg h2, List.getElem?_eq_none_iff.2 (by simp; omega)]

theorem distinct_prefix (seen l : List PathId) : seen <+: distinct seen l := by
  induction l generalizing seen with
  | nil => exact List.prefix_refl _
  | cons p ps ih =>
    rw [distinct]
    by_cases h : p ∈ seen
    · rw [if_pos h]; exact ih seen
    · rw [if_neg h]; exact (List.prefix_append _ _).trans (ih _)

theorem distinct_append (ps qs : List PathId) : ∀ s,
    distinct s (ps ++ qs) = distinct (distinct s ps) qs := by
  induction ps with
  | nil => intro s; rfl
  | cons p ps ih =>
    intro s
    simp only [List.cons_append, distinct]
    split <;> exact ih _

theorem idxOf_of_prefix {l l' : List PathId} (h : l <+: l') {p : PathId} (hp : p ∈ l) :
    l'.idxOf p = l.idxOf p := by
  obtain ⟨t, rfl⟩ := h
  rw [List.idxOf_append, if_pos hp]

theorem register_holds : ∀ (ps : List PathId) {m : NameMap} {l : List PathId}, Holds m l →
    (distinct l ps).length ≤ 4294967296 →
    Holds (registerAll m ps).2 (distinct l ps) ∧
      (registerAll m ps).1 = ps.map (fun p => (distinct l ps).idxOf p)
  | [], m, l, h, _ => ⟨h, rfl⟩
  | p :: ps, m, l, h, hb => by
    simp only [registerAll, distinct] at hb ⊢
    by_cases hp : p ∈ l
    · simp only [hp, if_true] at hb ⊢
      rw [h.add_old hp]
      obtain ⟨h1, h2⟩ := register_holds ps h hb
      refine ⟨h1, ?_⟩
      rw [h2, List.map_cons, idxOf_of_prefix (distinct_prefix l ps) hp]
    · simp only [hp, if_false] at hb ⊢
      have hpre := distinct_prefix (l ++ [p]) ps
      have hlen := hpre.length_le
      rw [List.length_append] at hlen
      simp only [List.length_singleton] at hlen
      obtain ⟨h0, hh⟩ := h.add_new hp (by omega)
      obtain ⟨h1, h2⟩ := register_holds ps hh hb
      refine ⟨h1, ?_⟩
      rw [h2, List.map_cons, idxOf_of_prefix hpre (by simp), h0]
      simp [List.idxOf_append, hp]

theorem mem_distinct (seen l : List PathId) (p : PathId) :
    p ∈ distinct seen l ↔ p ∈ seen ∨ p ∈ l := by
  induction l generalizing seen with
  | nil => simp [distinct]
  | cons q qs ih =>
    rw [distinct]
    by_cases h : q ∈ seen
    · rw [if_pos h, ih]
      constructor
      · rintro (h1 | h1)
        · exact .inl h1
        · exact .inr (List.mem_cons_of_mem _ h1)
      · rintro (h1 | h1)
        · exact .inl h1
        · rcases List.mem_cons.1 h1 with rfl | h1
          · exact .inl h
          · exact .inr h1
    · rw [if_neg h, ih]
      simp only [List.mem_append, List.mem_singleton, List.mem_cons]
      tauto

theorem register_append (ps qs : List PathId) : ∀ (m : NameMap),
    (registerAll m (ps ++ qs)).1 =
      (registerAll m ps).1 ++ (registerAll (registerAll m ps).2 qs).1 ∧
    (registerAll m (ps ++ qs)).2 = (registerAll (registerAll m ps).2 qs).2 := by
  induction ps with
  | nil => intro m; exact ⟨rfl, rfl⟩
  | cons p ps ih =>
    intro m
    simp only [List.cons_append, registerAll, ih, and_self]

theorem length_registerAll (ps : List PathId) : ∀ (m : NameMap),
    (registerAll m ps).1.length = ps.length := by
  induction ps with
  | nil => intro m; rfl
  | cons p ps ih => intro m; simp only [registerAll, List.length_cons, ih]

theorem exists_many_names (N : Nat) :
    ∃ (ps : List PathId) (p : PathId), (distinct [] ps).length = N ∧ p ∉ ps := by
  have hd : ∀ (l seen : List PathId), (seen ++ l).Nodup → distinct seen l = seen ++ l := by
    intro l
    induction l with
    | nil => intro seen _; simp [distinct]
    | cons q qs ih =>
      intro seen h
      have hq : q ∉ seen := by
        intro hq
        have := (List.nodup_append.1 h).2.2 q hq q (List.mem_cons_self ..)
        exact this rfl
      rw [distinct, if_neg hq, ih _ (by simpa using h)]
      simp
  let f : Nat → PathId := fun n => [List.replicate n 'a']
  have hinj : Function.Injective f := by
    intro a b hab
    have := congrArg (fun l => (l.map List.length)) hab
    simpa [f] using this
  refine ⟨(List.range N).map f, f N, ?_, ?_⟩
  · rw [hd _ [] (by simpa using (List.nodup_range).map hinj)]
    simp only [List.nil_append, List.length_map, List.length_range]
  · intro h
    obtain ⟨n, hn, he⟩ := List.mem_map.1 h
    have := hinj he
    have := List.mem_range.1 hn
    omega

end Helpers

/-- **C41.** Register any names, with at most 2^32 different ones. Then two registrations were
given the same id exactly when they were for the same name; looking up a registered name gives
the id that was handed out for it, the reverse lookup gives the name back, and a name that was
never registered has no id and looking it up panics. -/
theorem C41 (ps : List PathId) (hb : (distinct [] ps).length ≤ 4294967296) :
    let ids := (registerAll .empty ps).1
    let m := (registerAll .empty ps).2
    ids.length = ps.length ∧
    (∀ (i j a b : Nat) (p q : PathId), ids[i]? = some a → ids[j]? = some b → ps[i]? = some p → ps[j]? = some q →
      (a = b ↔ p = q)) ∧
    (∀ (i a : Nat) (p : PathId), ids[i]? = some a → ps[i]? = some p →
      m.get p = some a ∧ m.getRuleName p = .ok a ∧ m.getReverse a = some p ∧
      m.add p = (a, m)) ∧
    (∀ p, p ∉ ps → m.get p = none ∧ m.getRuleName p = .error .explicit) ∧
    (∀ a, a ∉ ids → m.getReverse a = none) := by
  obtain ⟨h, hids⟩ := register_holds ps Holds.empty hb
  simp only
  have hmem : ∀ p, p ∈ distinct [] ps ↔ p ∈ ps := by
    intro p; rw [mem_distinct]; simp
  rw [hids]
  have key : ∀ (i a : Nat) (p : PathId), (ps.map fun p => (distinct [] ps).idxOf p)[i]? = some a → ps[i]? = some p →
      a = (distinct [] ps).idxOf p ∧ p ∈ distinct [] ps := by
    intro i a p ha hp
    rw [List.getElem?_map, hp] at ha
    simp only [Option.map_some, Option.some.injEq] at ha
    exact ⟨ha.symm, (hmem p).2 (List.mem_of_getElem? hp)⟩
  refine ⟨by simp, ?_, ?_, ?_, ?_⟩
  · intro i j a b p q ha hb hp hq
    obtain ⟨rfl, hp'⟩ := key i a p ha hp
    obtain ⟨rfl, hq'⟩ := key j b q hb hq
    exact List.idxOf_inj hp'
  · intro i a p ha hp
    obtain ⟨rfl, hp'⟩ := key i a p ha hp
    have hg := h.get p
    rw [if_pos hp'] at hg
    refine ⟨hg, ?_, ?_, h.add_old hp'⟩
    · unfold NameMap.getRuleName NameMap.get; rw [hg]
    · unfold NameMap.getReverse
      rw [h.getReverse]
      exact List.getElem?_idxOf hp'
  · intro p hp
    have hg := h.get p
    rw [if_neg (fun h => hp ((hmem p).1 h))] at hg
    refine ⟨hg, ?_⟩
    unfold NameMap.getRuleName NameMap.get; rw [hg]
  · intro a ha
    unfold NameMap.getReverse
    rw [h.getReverse, List.getElem?_eq_none_iff]
    by_contra hlt
    apply ha
    have hlt : a < (distinct [] ps).length := by omega
    refine List.mem_map.2 ⟨(distinct [] ps)[a], (hmem _).1 (List.getElem_mem hlt), ?_⟩
    exact h.nodup.idxOf_getElem a hlt

/-- Ids never change their meaning: what a name or an id stood for after the registrations `ps`, it
stands for after any further ones. -/
theorem C41_stable (ps qs : List PathId) (hb : (distinct [] (ps ++ qs)).length ≤ 4294967296) :
    let m := (registerAll .empty ps).2
    let m' := (registerAll m qs).2
    (∀ p a, m.get p = some a → m'.get p = some a) ∧
    (∀ a p, m.getReverse a = some p → m'.getReverse a = some p) := by
  have happ : distinct [] (ps ++ qs) = distinct (distinct [] ps) qs := by
    exact distinct_append ps qs []
  have hpre : distinct [] ps <+: distinct [] (ps ++ qs) := by
    rw [happ]; exact distinct_prefix _ _
  obtain ⟨h, -⟩ := register_holds ps Holds.empty (Nat.le_trans hpre.length_le hb)
  obtain ⟨h', -⟩ := register_holds (ps ++ qs) Holds.empty hb
  rw [(register_append ps qs .empty).2] at h'
  simp only
  refine ⟨fun p a ha => ?_, fun a p ha => ?_⟩
  · unfold NameMap.get at ha ⊢
    rw [h.get] at ha
    by_cases hp : p ∈ distinct [] ps
    · rw [if_pos hp] at ha
      rw [h'.get, if_pos (hpre.subset hp), idxOf_of_prefix hpre hp]
      exact ha
    · rw [if_neg hp] at ha; cases ha
  · unfold NameMap.getReverse at ha ⊢
    rw [h.getReverse] at ha
    rw [h'.getReverse]
    obtain ⟨t, ht⟩ := hpre
    obtain ⟨hlt, he⟩ := List.getElem?_eq_some_iff.1 ha
    rw [← ht, List.getElem?_append_left hlt]
    exact ha

/-- The bound is needed: the name registered after 2^32 other ones is given the id of the first
one. -/
theorem C41_bound_needed (ps : List PathId) (p : PathId) (h1 : (distinct [] ps).length = 4294967296)
    (h2 : p ∉ ps) : ((registerAll .empty ps).2.add p).1 = 0 := by
  obtain ⟨h, -⟩ := register_holds ps Holds.empty (Nat.le_of_eq h1)
  have hp : p ∉ distinct [] ps := by rw [mem_distinct]; simpa using h2
  have hg := h.get p
  rw [if_neg hp] at hg
  unfold NameMap.add
  simp only [hg, h.length, h1, Nat.mod_self]

/-- What makes a name: at least a namespace and a last part, and every part is a character that may
begin an identifier, followed by characters that may continue one. Everything else panics. -/
theorem C41_path (xs xc : Char → Bool) (name : List Str) :
    ((∃ p, PathId.new xs xc name = .ok p) ↔ (∃ a b rest, name = a :: b :: rest) ∧
      ∀ part ∈ name, ∃ c cs, part = c :: cs ∧ xs c = true ∧ ∀ d ∈ cs, xc d = true) ∧
    (∀ p, PathId.new xs xc name = .ok p → p = name) ∧
    (∀ e, PathId.new xs xc name = .error e → e = .assertion) := by
  have h1 : 1 < name.length ↔ ∃ a b rest, name = a :: b :: rest := by
    match name with
    | [] => simp
    | [a] => simp
    | a :: b :: rest => simp
  have h2 : name.all (isIdentifier xs xc) = true ↔
      ∀ part ∈ name, ∃ c cs, part = c :: cs ∧ xs c = true ∧ ∀ d ∈ cs, xc d = true := by
    rw [List.all_eq_true]
    refine forall₂_congr fun part _ => ?_
    cases part with
    | nil => simp [isIdentifier]
    | cons c cs => simp [isIdentifier]
  rw [← h1, ← h2]
  unfold PathId.new massert
  by_cases h3 : 1 < name.length
  · by_cases h4 : name.all (isIdentifier xs xc) = true
    · simp [h3, h4, M.ok_bind]
    · simp [h3, h4, M.ok_bind, M.error_bind]
  · simp [h3, M.error_bind]

-- `Core::Variable` is a name; a name without a namespace and one with a space are not.
example (xs : Char → Bool) (h : xs = fun c => c.isAlpha) :
    PathId.new xs xs ["Core".toList, "Variable".toList] = .ok ["Core".toList, "Variable".toList] ∧
    PathId.new xs xs ["Core".toList] = .error .assertion ∧
    PathId.new xs xs ["Core".toList, "a b".toList] = .error .assertion := by
  subst h
  decide +kernel

/-- Five registrations of three names. -/
example : (distinct [] [["BuiltIn".toList, "Sub".toList], ["Core".toList, "Variable".toList],
      ["BuiltIn".toList, "Sub".toList], ["Core".toList, "Brackets".toList],
      ["Core".toList, "Variable".toList]]).length ≤ 4294967296 ∧
    (registerAll .empty [["BuiltIn".toList, "Sub".toList], ["Core".toList, "Variable".toList],
      ["BuiltIn".toList, "Sub".toList], ["Core".toList, "Brackets".toList],
      ["Core".toList, "Variable".toList]]).1 = [0, 1, 0, 2, 1] := by decide +kernel

/-- There are lists of names as in `C41_bound_needed`. -/
example : ∃ (ps : List PathId) (p : PathId), (distinct [] ps).length = 4294967296 ∧ p ∉ ps :=
  exists_many_names _

end Aftermath
