import Verif.Model.Utils
import Verif.Proof.Basic
import Mathlib.Data.List.Dedup
import Mathlib.Data.List.Induction
import Mathlib.Data.List.Forall2

/-! # C91, C92, C93: the helpers that stand on their own -/

namespace Aftermath

variable {α β γ ε K V : Type}

/-! ## C91: searching in a sorted array -/

theorem binaryLoop_succ {array : List α} {cmp : α → Int} : ∀ {n : Nat} {low high : Int} {r : Int × Bool},
    binaryLoop array cmp n low high = .ok r → binaryLoop array cmp (n + 1) low high = .ok r
  | 0, _, _, _, h => by cases h
  | n + 1, low, high, r, h => by
    rw [binaryLoop] at h ⊢
    by_cases hc : low ≤ high
    · simp only [hc, if_true] at h ⊢
      split at h
      · cases h
      · rename_i x hx
        by_cases h1 : cmp x < 0
        · simp only [h1, if_true] at h ⊢
          exact binaryLoop_succ h
        · by_cases h2 : cmp x > 0
          · simp only [h1, if_false, h2, if_true] at h ⊢
            exact binaryLoop_succ h
          · simp only [h1, if_false, h2] at h ⊢
            exact h
    · simp only [hc, if_false] at h ⊢
      exact h

theorem binaryLoop_le {array : List α} {cmp : α → Int} {n m : Nat} (hm : n ≤ m) {low high : Int}
    {r : Int × Bool} (h : binaryLoop array cmp n low high = .ok r) :
    binaryLoop array cmp m low high = .ok r := by
  induction hm with
  | refl => exact h
  | step _ ih => exact binaryLoop_succ ih

/-- The elements that are too small come first, then those that are right, then those that are too
big. -/
def Ordered (array : List α) (cmp : α → Int) : Prop :=
  ∀ (i j : Nat) (x y : α), i ≤ j → array[i]? = some x → array[j]? = some y →
    (0 ≤ cmp x → 0 ≤ cmp y) ∧ (0 < cmp x → 0 < cmp y)

/-- What is asked of the result: the place of a right element, or the only place at which one can be
put in. -/
def Found (array : List α) (cmp : α → Int) (i : Nat) (found : Bool) : Prop :=
  (found = true → ∃ x, array[i]? = some x ∧ cmp x = 0) ∧
  (found = false → i ≤ array.length ∧
    ∀ (j : Nat) (x : α), array[j]? = some x → (j < i → cmp x < 0) ∧ (i ≤ j → 0 < cmp x))

theorem binaryLoop_ok {array : List α} {cmp : α → Int} (ho : Ordered array cmp) :
    ∀ {n : Nat} {low high : Nat}, high ≤ array.length → low ≤ high → high - low < 2 ^ n →
      (∀ j x, array[j]? = some x → (j < low → cmp x < 0) ∧ (high ≤ j → 0 < cmp x)) →
      ∃ i found, binaryLoop array cmp (n + 1) low (high - 1) = .ok ((i : Nat), found) ∧
        Found array cmp i found
  | n, low, high, h1, h2, h3, h4 => by
    rw [binaryLoop]
    by_cases hc : low = high
    · subst hc
      rw [if_neg (by omega)]
      exact ⟨low, false, rfl, nofun, fun _ => ⟨h1, h4⟩⟩
    · obtain ⟨m, rfl⟩ : ∃ m, n = m + 1 := by
        cases n with
        | zero => simp at h3; omega
        | succ m => exact ⟨m, rfl⟩
      have hp : 2 ^ (m + 1) = 2 * 2 ^ m := by rw [Nat.pow_succ, Nat.mul_comm]
      rw [if_pos (by omega)]
      obtain ⟨mid, hmid, hlo, hhi⟩ : ∃ mid : Nat, (low : Int) + ((high : Int) - 1 - low) / 2 = mid ∧
          mid = low + (high - 1 - low) / 2 ∧ mid < high := by
        refine ⟨low + (high - 1 - low) / 2, by omega, rfl, by omega⟩
      dsimp only
      rw [hmid, if_neg (by omega), Int.toNat_natCast,
        List.getElem?_eq_getElem (show mid < array.length by omega)]
      dsimp only
      have hx : array[mid]? = some array[mid] := List.getElem?_eq_getElem _
      by_cases hl : cmp array[mid] < 0
      · rw [if_pos hl]
        refine binaryLoop_ok ho (n := m) (low := mid + 1) h1 (by omega) (by omega) fun j y hy => ⟨fun hj => ?_, (h4 j y hy).2⟩
        by_contra hge
        have := (ho j mid y _ (by omega) hy hx).1 (by omega)
        omega
      · rw [if_neg hl]
        by_cases hg : cmp array[mid] > 0
        · rw [if_pos hg]
          refine binaryLoop_ok ho (n := m) (high := mid) (by omega) (by omega) (by omega) fun j y hy =>
            ⟨(h4 j y hy).1, fun hj => (ho mid j _ y hj hx hy).2 hg⟩
        · rw [if_neg hg]
          exact ⟨mid, true, rfl, fun _ => ⟨_, hx, by omega⟩, nofun⟩

/-- **C91.** `getBinaryInsertIndex` finds an element or the only place for it. It never looks outside
of the array, and it compares at most `log₂ n + 1` times. -/
theorem C91_search {array : List α} {cmp : α → Int} (ho : Ordered array cmp) :
    ∃ i found, getBinaryInsertIndex array cmp = .ok ((i : Nat), found) ∧ Found array cmp i found ∧
      binaryLoop array cmp (Nat.log2 array.length + 2) 0 (array.length - 1) =
        .ok ((i : Nat), found) := by
  have h : array.length - 0 < 2 ^ (Nat.log2 array.length + 1) := by
    rw [Nat.sub_zero]
    exact Nat.lt_log2_self
  obtain ⟨i, found, h1, h2⟩ := binaryLoop_ok ho (n := Nat.log2 array.length + 1) (low := 0)
    (Nat.le_refl _) (Nat.zero_le _) h fun j x hx => ⟨fun h => absurd h (by omega), fun hj => by
      have := (List.getElem?_eq_some_iff.1 hx).1
      omega⟩
  obtain ⟨i', found', h3, -⟩ := binaryLoop_ok ho (n := array.length) (low := 0)
    (Nat.le_refl _) (Nat.zero_le _) (by rw [Nat.sub_zero]; exact Nat.lt_two_pow_self)
    fun j x hx => ⟨fun h => absurd h (by omega), fun hj => by
      have := (List.getElem?_eq_some_iff.1 hx).1
      omega⟩
  have h5 := binaryLoop_le (Nat.le_add_right _ (array.length + 1)) h1
  have h6 := binaryLoop_le (Nat.le_add_left _ (Nat.log2 array.length + 1 + 1)) h3
  rw [h5] at h6
  cases h6
  exact ⟨i, found, h3, h2, h1⟩

/-- 3 is at the place 1 of `[1, 3, 4]`; 2 would be put there. -/
example : (getBinaryInsertIndex [1, 3, 4] fun x : Int => x - 3).toOption = some (1, true) ∧
    (getBinaryInsertIndex [1, 3, 4] fun x : Int => x - 2).toOption = some (1, false) := by
  decide +kernel

/-! ## C91: the other helpers for arrays and maps -/

/-- **C91.** `remove` removes the first element that is the same, if there is one. -/
theorem C91_remove (same : α → α → Bool) (array : List α) (element : α) :
    (∃ l x r, array = l ++ x :: r ∧ same x element = true ∧ (∀ y ∈ l, same y element = false) ∧
      arrayRemove same array element = (l ++ r, true)) ∨
    ((∀ y ∈ array, same y element = false) ∧ arrayRemove same array element = (array, false)) := by
  unfold arrayRemove
  cases h : array.findIdx? fun x => same x element with
  | none =>
    refine .inr ⟨fun y hy => ?_, rfl⟩
    have := List.findIdx?_eq_none_iff.1 h y hy
    simpa using this
  | some i =>
    obtain ⟨hi, h1, h2⟩ := List.findIdx?_eq_some_iff_getElem.1 h
    refine .inl ⟨array.take i, array[i], array.drop (i + 1), ?_, h1, fun y hy => ?_, ?_⟩
    · rw [← List.drop_eq_getElem_cons hi, List.take_append_drop]
    · obtain ⟨j, hj, rfl⟩ := List.mem_iff_getElem.1 hy
      rw [List.length_take] at hj
      rw [List.getElem_take]
      simpa using h2 j (by omega)
    · dsimp only
      rw [List.eraseIdx_eq_take_drop_succ]

example : arrayRemove (· == ·) [1, 2, 1] 1 = ([2, 1], true) ∧
    arrayRemove (· == ·) [1, 2, 1] 3 = ([1, 2, 1], false) := by decide

theorem findFailing_none {p : α → Nat → Bool} : ∀ {i : Nat} {l : List α},
    findFailing p i l = none ↔ ∀ j x, l[j]? = some x → p x (i + j) = true
  | i, [] => by simp [findFailing]
  | i, x :: xs => by
    rw [findFailing]
    constructor
    · intro h j y hy
      split at h
      · cases h
      · rename_i hp
        cases j with
        | zero =>
          cases hy
          simpa using hp
        | succ j =>
          have := findFailing_none.1 h j y (by simpa using hy)
          rwa [Nat.add_assoc, Nat.add_comm 1] at this
    · intro h
      have h0 := h 0 x rfl
      rw [Nat.add_zero] at h0
      rw [h0]
      simp only [Bool.not_true, Bool.false_eq_true, if_false]
      exact findFailing_none.2 fun j y hy => by
        have := h (j + 1) y (by simpa using hy)
        rwa [Nat.add_assoc, Nat.add_comm 1]

theorem findFailing_some {p : α → Nat → Bool} : ∀ {i k : Nat} {l : List α},
    findFailing p i l = some k → ∃ n, k = i + n ∧ (∃ x, l[n]? = some x ∧ p x k = false) ∧
      ∀ j x, j < n → l[j]? = some x → p x (i + j) = true
  | i, k, [], h => by simp [findFailing] at h
  | i, k, x :: xs, h => by
    rw [findFailing] at h
    split at h
    · rename_i hp
      cases h
      exact ⟨0, rfl, ⟨x, rfl, by simpa using hp⟩, fun j y hj => absurd hj (by omega)⟩
    · rename_i hp
      obtain ⟨n, rfl, ⟨y, hy, hpy⟩, h3⟩ := findFailing_some h
      refine ⟨n + 1, by omega, ⟨y, by simpa using hy, hpy⟩, fun j z hj hz => ?_⟩
      cases j with
      | zero =>
        cases hz
        simpa using hp
      | succ j =>
        have := h3 j z (by omega) (by simpa using hz)
        rwa [Nat.add_assoc, Nat.add_comm 1] at this

/-- The first `n` elements satisfy the condition, and the next one, if there is one, does not. -/
def Splits (array : List α) (p : α → Nat → Bool) (n : Nat) : Prop :=
  n ≤ array.length ∧ (∀ j x, j < n → array[j]? = some x → p x j = true) ∧
    ∀ x, array[n]? = some x → p x n = false

theorem splits_unique {array : List α} {p : α → Nat → Bool} {n m : Nat} (h1 : Splits array p n)
    (h2 : Splits array p m) : n = m := by
  have key : ∀ {n m : Nat}, Splits array p n → Splits array p m → ¬n < m := by
    intro n m h1 h2 h
    have hl : n < array.length := by have := h2.1; omega
    have h3 := h2.2.1 n _ h (List.getElem?_eq_getElem hl)
    rw [h1.2.2 _ (List.getElem?_eq_getElem hl)] at h3
    cases h3
  have := key h1 h2
  have := key h2 h1
  omega

theorem splits_find (array : List α) (p : α → Nat → Bool) :
    Splits array p ((findFailing p 0 array).getD array.length) := by
  cases h : findFailing p 0 array with
  | none =>
    refine ⟨Nat.le_refl _, fun j x _ hx => ?_, fun x hx => ?_⟩
    · have := findFailing_none.1 h j x hx
      rwa [Nat.zero_add] at this
    · simp at hx
  | some k =>
    obtain ⟨n, hk, ⟨x, hx, hp⟩, h3⟩ := findFailing_some h
    rw [Nat.zero_add] at hk
    subst hk
    refine ⟨Nat.le_of_lt (List.getElem?_eq_some_iff.1 hx).1, fun j y hj hy => ?_, fun y hy => ?_⟩
    · have := h3 j y hj hy
      rwa [Nat.zero_add] at this
    · rw [Option.getD_some, hx] at hy
      cases hy
      exact hp

/-- **C91.** `takeWhile` gives the elements before the first one that does not satisfy the
condition. -/
theorem C91_take {array : List α} {p : α → Nat → Bool} {n : Nat} (h : Splits array p n) :
    takeWhile array p = array.take n := by
  have := splits_unique h (splits_find array p)
  unfold takeWhile
  cases hf : findFailing p 0 array with
  | none => rw [hf] at this; subst this; simp
  | some k => rw [hf] at this; subst this; rfl

example : takeWhile [1, 2, 5, 1] (fun x _ => decide (x < 3)) = [1, 2] := by decide

/-- **C91.** `range` gives the numbers from the first one up to, but not including, the last one; it
throws exactly if the end is before the start. -/
theorem C91_range (start stop : Int) :
    ((∃ e, arrayRange start stop = .error e) ↔ stop < start) ∧
    ∀ l, arrayRange start stop = .ok l → l.length = (stop - start).toNat ∧
      ∀ (i : Nat) (x : Int), l[i]? = some x → x = start + i := by
  unfold arrayRange
  by_cases h : stop - start < 0
  · rw [if_pos h]
    exact ⟨⟨fun _ => by omega, fun _ => ⟨_, rfl⟩⟩, nofun⟩
  · rw [if_neg h]
    refine ⟨⟨fun ⟨e, he⟩ => (nomatch he), fun h' => by omega⟩, fun l hl => ?_⟩
    cases hl
    refine ⟨by simp, fun i x hx => ?_⟩
    rw [List.getElem?_map] at hx
    obtain ⟨j, hj, rfl⟩ := Option.map_eq_some_iff.1 hx
    obtain ⟨hi, rfl⟩ := List.getElem?_eq_some_iff.1 hj
    simp [Int.add_comm]

example : (arrayRange 2 5).toOption = some [2, 3, 4] ∧ (arrayRange 2 1).toOption = none := by decide

/-- **C91.** `zipWith` pairs the elements at equal places, up to the end of the longer array. -/
theorem C91_zip (a b : List α) : (zipBoth a b).length = max a.length b.length ∧
    ∀ i, i < max a.length b.length → (zipBoth a b)[i]? = some (a[i]?, b[i]?) := by
  refine ⟨by simp [zipBoth], fun i hi => ?_⟩
  simp [zipBoth, List.getElem?_map, List.getElem?_range hi]

example : zipBoth [1, 2] [3] = [(some 1, some 3), (some 2, none)] := by decide

/-- **C91.** For different objects `shallowEquals` compares the elements one by one; elements that are
not even equal to themselves (`NaN`) make a copy of an array different from the array. -/
theorem C91_equals (same : α → α → Bool) (identical : Bool) (a b : List α) :
    shallowEquals same identical a b = true ↔
      identical = true ∨ List.Forall₂ (fun x y => same x y = true) a b := by
  unfold shallowEquals
  cases identical with
  | true => simp
  | false =>
    simp only [Bool.false_eq_true, if_false, false_or]
    by_cases h : a.length = b.length
    · rw [if_neg (by simpa using h), List.all_eq_true]
      rw [List.forall₂_iff_zip]
      simp only [h, true_and, Prod.forall]
    · rw [if_pos h]
      exact ⟨nofun, fun h' => absurd h'.length_eq h⟩

example : shallowEquals (· == ·) false [1, 2] [1, 2] = true ∧
    shallowEquals (· == ·) false [1, 2] [1, 3] = false := by decide

section Maps

variable [DecidableEq K]

theorem mapGet_append (m : List (K × V)) (k k' : K) (v : V) :
    mapGet (m ++ [(k, v)]) k' = (mapGet m k').or (if k = k' then some v else none) := by
  unfold mapGet
  rw [List.find?_append]
  cases m.find? fun e => e.1 = k' with
  | some e => simp
  | none => by_cases h : k = k' <;> simp [h]

theorem mapGet_pushAt (k k' : K) (v : V) : ∀ (m : List (K × List V)),
    mapGet (pushAt k v m) k' = if k = k' then (mapGet m k').map (· ++ [v]) else mapGet m k'
  | [] => by simp [pushAt, mapGet]
  | (k1, vs) :: m => by
    have ih := mapGet_pushAt k k' v m
    unfold mapGet at ih ⊢
    rw [pushAt]
    by_cases h1 : k1 = k
    · subst h1
      by_cases h2 : k1 = k'
      · simp [h2]
      · simp [h2]
    · rw [if_neg h1]
      by_cases h2 : k1 = k'
      · subst h2
        simp [Ne.symm h1]
      · simpa [h2] using ih

theorem pushAt_keys (k : K) (v : V) : ∀ (m : List (K × List V)),
    (pushAt k v m).map (·.1) = m.map (·.1)
  | [] => rfl
  | (k1, vs) :: m => by
    rw [pushAt]
    split
    · rfl
    · simp [pushAt_keys k v m]

theorem mapGet_isSome {m : List (K × V)} {k : K} : (mapGet m k).isSome = true ↔ k ∈ m.map (·.1) := by
  unfold mapGet
  rw [Option.isSome_map, List.find?_isSome]
  simp only [decide_eq_true_eq, List.mem_map]

/-- **C91.** `groupBy` puts every value into the group of its key, in the order of the values. There
are no empty groups and no two groups for a key; the groups are in the order in which their keys come
first. -/
theorem C91_group (values : List V) (key : V → K) :
    (∀ k, mapGet (groupBy values key) k =
      if values.filter (fun v => key v = k) = [] then none
      else some (values.filter fun v => key v = k)) ∧
    ((groupBy values key).map (·.1)).Nodup ∧
    (groupBy values key).map (·.1) = (values.map key).reverse.dedup.reverse := by
  have key1 : ∀ values : List V, (∀ k, mapGet (groupBy values key) k =
      if values.filter (fun v => key v = k) = [] then none
      else some (values.filter fun v => key v = k)) ∧
      (groupBy values key).map (·.1) = (values.map key).reverse.dedup.reverse := by
    intro values
    induction values using List.reverseRecOn with
    | nil => exact ⟨fun k => by simp [groupBy, mapGet], by simp [groupBy]⟩
    | append_singleton vs v ih =>
      obtain ⟨ih1, ih2⟩ := ih
      have hstep : groupBy (vs ++ [v]) key = groupStep key (groupBy vs key) v := by
        simp [groupBy]
      rw [hstep, groupStep]
      cases hg : mapGet (groupBy vs key) (key v) with
      | some g =>
        have hmem : key v ∈ vs.map key := by
          have := mapGet_isSome.1 (Option.isSome_iff_exists.2 ⟨g, hg⟩)
          rw [ih2] at this
          simpa using this
        refine ⟨fun k => ?_, ?_⟩
        · rw [mapGet_pushAt, List.filter_append]
          by_cases hk : key v = k
          · subst hk
            rw [if_pos rfl, ih1]
            rw [ih1] at hg
            split at hg
            · cases hg
            · rename_i hne
              rw [if_neg hne]
              simp
          · rw [if_neg hk, ih1]
            simp [hk]
        · rw [pushAt_keys, ih2]
          rw [List.map_append, List.reverse_append, List.map_cons, List.map_nil,
            List.reverse_singleton, List.singleton_append, List.dedup_cons_of_mem (by simpa using hmem)]
      | none =>
        have hmem : key v ∉ vs.map key := by
          intro h
          have := (mapGet_isSome (m := groupBy vs key) (k := key v)).2 (by rw [ih2]; simpa using h)
          rw [hg] at this
          cases this
        refine ⟨fun k => ?_, ?_⟩
        · dsimp only
          rw [mapGet_append, List.filter_append, ih1]
          by_cases hk : key v = k
          · subst hk
            have : vs.filter (fun w => key w = key v) = [] := by
              rw [List.filter_eq_nil_iff]
              intro w hw
              simp only [decide_eq_true_eq]
              intro h
              exact hmem (h ▸ List.mem_map_of_mem hw)
            simp [this]
          · simp [hk]
        · dsimp only
          rw [List.map_append, ih2, List.map_append (l₁ := vs), List.reverse_append,
            List.map_singleton (f := key), List.reverse_singleton, List.singleton_append,
            List.dedup_cons_of_notMem (by simpa using hmem)]
          simp
  refine ⟨(key1 values).1, ?_, (key1 values).2⟩
  rw [(key1 values).2, List.nodup_reverse]
  exact List.nodup_dedup _

example : groupBy [3, 1, 4, 5] (fun n => n % 2) = [(1, [3, 1, 5]), (0, [4])] := by decide

/-- **C91.** After `getOrDefault` the map has the value that was returned, and all other keys have the
values they had. A value that was there is not replaced. -/
theorem C91_default (m : List (K × V)) (k : K) (dflt : Unit → V) :
    mapGet (getOrDefault m k dflt).2 k = some (getOrDefault m k dflt).1 ∧
    (∀ v, mapGet m k = some v → getOrDefault m k dflt = (v, m)) ∧
    ∀ k', k' ≠ k → mapGet (getOrDefault m k dflt).2 k' = mapGet m k' := by
  unfold getOrDefault
  cases h : mapGet m k with
  | some v => exact ⟨h, fun v' hv => by cases hv; rfl, fun _ _ => rfl⟩
  | none =>
    refine ⟨?_, nofun, fun k' hk => ?_⟩
    · rw [mapGet_append, h]
      simp
    · rw [mapGet_append, if_neg (Ne.symm hk)]
      simp

example : (getOrDefault [(1, 'a')] 2 fun _ => 'b') = ('b', [(1, 'a'), (2, 'b')]) := by decide

end Maps

/-- **C91.** The popup lists exactly the given elements and is visible if there are any. -/
theorem C91_popup (p : Popup) (elements : List Str) :
    (p.setElements elements).items = elements ∧
      ((p.setElements elements).visible = true ↔ elements ≠ []) := by
  have key : ∀ (l acc : List Str), l.foldl (fun l e => l ++ [e]) acc = acc ++ l := by
    intro l
    induction l with
    | nil => simp
    | cons x xs ih => intro acc; rw [List.foldl_cons, ih]; simp
  refine ⟨by simp [Popup.setElements, key], ?_⟩
  simp [Popup.setElements, List.length_pos_iff]

example : (Popup.new.setElements ["sum".toList, "sin".toList]).visible = true := by decide

/-! ## C92: skipping, and remembering results -/

/-- **C92, negation.** If all elements satisfy the condition, `skipWhile` skips nothing. -/
theorem C92_skip_not {array : List α} {p : α → Nat → Bool} (h : Splits array p array.length) :
    skipWhile array p = array := by
  have := splits_unique h (splits_find array p)
  unfold skipWhile
  cases hf : findFailing p 0 array with
  | none => rfl
  | some k =>
    obtain ⟨n, hk, ⟨x, hx, -⟩, -⟩ := findFailing_some hf
    rw [hf, Option.getD_some] at this
    have := (List.getElem?_eq_some_iff.1 hx).1
    omega

/-- **C92.** `skipWhile` skips the elements before the first one that does not satisfy the condition,
exactly if there is such an element or nothing to skip. Missing: the other case. -/
theorem C92_skip_partial {array : List α} {p : α → Nat → Bool} {n : Nat} (h : Splits array p n) :
    skipWhile array p = array.drop n ↔ n < array.length ∨ array = [] := by
  by_cases hn : n = array.length
  · subst hn
    rw [C92_skip_not h]
    simp
  · have hlt : n < array.length := by have := h.1; omega
    have := splits_unique h (splits_find array p)
    unfold skipWhile
    cases hf : findFailing p 0 array with
    | none => rw [hf] at this; simp at this; omega
    | some k =>
      rw [hf, Option.getD_some] at this
      subst this
      simp [hlt]

/-- `[1, 2]` should become empty. -/
example : skipWhile [1, 2] (fun x _ => decide (x < 3)) = [1, 2] ∧
    skipWhile [1, 5, 2] (fun x _ => decide (x < 3)) = [5, 2] := by decide

/-- The arguments look like those that are kept: equal, and `undefined` where nothing is kept. -/
def Alike (same : α → α → Bool) (kept args : List (Option α)) : Prop :=
  ∀ (i : Nat) (a : Option α), args[i]? = some a →
    match a, (kept[i]?).getD none with
    | none, none => True
    | some a, some b => same a b = true
    | _, _ => False

theorem Memo.call_eq {same : α → α → Bool} {f : List (Option α) → β} {m : Memo (Option α) β}
    {args : List (Option α)} :
    (Alike same m.args args → m.call same f args = (m.value, m)) ∧
    (¬Alike same m.args args → m.call same f args = (some (f args), ⟨args, some (f args)⟩)) := by
  have : (args.zipIdx.all fun p => sameArg same p.1 ((m.args[p.2]?).getD none)) = true ↔
      Alike same m.args args := by
    rw [List.all_eq_true]
    constructor
    · intro h i a ha
      have := h (a, i) (by simpa [List.mem_zipIdx_iff_getElem?] using ha)
      dsimp only at this
      cases a <;> cases h' : (m.args[i]?).getD none <;> simp_all [sameArg]
    · rintro h ⟨a, i⟩ ha
      have := h i a (by simpa [List.mem_zipIdx_iff_getElem?] using ha)
      dsimp only
      cases a <;> cases h' : (m.args[i]?).getD none <;> simp_all [sameArg]
  unfold Memo.call
  constructor
  · intro h; rw [if_pos (this.2 h)]
  · intro h; rw [if_neg (fun h' => h (this.1 h'))]

/-- **C92, negation.** A first call without arguments, or with `undefined` only, does not call the
function and gives `undefined`. After a call with arguments, a call with fewer of them gives the old
result. -/
theorem C92_memo_not (same : α → α → Bool) (f : List (Option α) → β) :
    (∀ n, (Memo.new.call same f (List.replicate n none)).1 = none) ∧
    ∀ a b, same a a = true → ∀ m : Memo (Option α) β, m.args = [some a, some b] →
      m.call same f [some a] = (m.value, m) := by
  refine ⟨fun n => ?_, fun a b hs m hm => ?_⟩
  · rw [Memo.call_eq.1]
    · rfl
    · intro i a ha
      rw [List.getElem?_replicate] at ha
      split at ha
      · cases ha
        simp [Memo.new]
      · cases ha
  · refine Memo.call_eq.1 fun i c hc => ?_
    rw [hm]
    cases i with
    | zero => cases hc; simpa using hs
    | succ i => simp at hc

theorem alike_eq {same : α → α → Bool} (hs : ∀ a b, same a b = true → a = b)
    {kept args : List (Option α)} (h : Alike same kept args) (hl : args.length = kept.length) :
    args = kept := by
  refine List.ext_getElem hl fun i h1 h2 => ?_
  have := h i _ (List.getElem?_eq_getElem h1)
  rw [List.getElem?_eq_getElem h2, Option.getD_some] at this
  cases ha : args[i] <;> cases hb : kept[i] <;> simp_all
  exact hs _ _ this

theorem Memo.calls_right {same : α → α → Bool} (hs : ∀ a b, same a b = true → a = b)
    {f : List (Option α) → β} {n : Nat} : ∀ {l : List (List (Option α))} {m : Memo (Option α) β},
    (∀ args ∈ l, args.length = n) → m.args.length = n → m.value = some (f m.args) →
    Memo.calls same f m l = l.map fun args => some (f args)
  | [], _, _, _, _ => rfl
  | args :: l, m, h1, h2, h3 => by
    have hl := h1 args (.head _)
    have htail := fun a (h : a ∈ l) => h1 a (.tail _ h)
    rw [Memo.calls, List.map_cons]
    by_cases ha : Alike same m.args args
    · have := alike_eq hs ha (by omega)
      rw [Memo.call_eq.1 ha]
      rw [Memo.calls_right hs htail h2 h3, h3, this]
    · rw [Memo.call_eq.2 ha]
      rw [Memo.calls_right hs htail hl rfl]

/-- **C92.** If the function is always called with the same number of arguments, then all results are
right exactly if not all arguments of the first call are `undefined`. Missing: that case, and calls
with different numbers of arguments (`C92_memo_not`). -/
theorem C92_memo_partial {same : α → α → Bool} (hs : ∀ a b, same a b = true → a = b)
    {f : List (Option α) → β} {n : Nat} {first : List (Option α)} {l : List (List (Option α))}
    (h : ∀ args ∈ first :: l, args.length = n) :
    Memo.calls same f .new (first :: l) = ((first :: l).map fun args => some (f args)) ↔
      ∃ a, some a ∈ first := by
  have hal : Alike same [] first ↔ ¬∃ a, some a ∈ first := by
    constructor
    · rintro h ⟨a, ha⟩
      obtain ⟨i, hi⟩ := List.getElem?_of_mem ha
      simpa using h i _ hi
    · intro h i a ha
      cases a with
      | none => simp
      | some a => exact absurd ⟨a, List.mem_of_getElem? ha⟩ h
  rw [Memo.calls, List.map_cons]
  by_cases hf : ∃ a, some a ∈ first
  · have : ¬Alike same (Memo.new (α := Option α) (β := β)).args first := fun h' => hal.1 h' hf
    rw [Memo.call_eq.2 this]
    rw [Memo.calls_right hs (fun a ha => h a (.tail _ ha)) (h first (.head _)) rfl]
    simp [hf]
  · have : Alike same (Memo.new (α := Option α) (β := β)).args first := hal.2 hf
    rw [Memo.call_eq.1 this]
    simp [hf, Memo.new]

/-- The sum of the arguments: `f(1, 2)`, `f(1, 2)`, `f(2, 2)`, and then the mistake with `f(2)`. -/
example : Memo.calls (· == ·) (fun l => (l.map fun a => a.getD 0).sum) .new
    [[some 1, some 2], [some 1, some 2], [some 2, some 2], [some 2]] =
    [some 3, some 3, some 4, some 4] := by decide

/-! ## C93: the longest match -/

/-- `a` comes before `b` or is as good: a failure is worse than a success, a short match worse than a
long one. -/
def NoBetter (a b : Except ε α × Nat) : Prop :=
  match a.1, b.1 with
  | .ok _, .ok _ => a.2 ≤ b.2
  | .ok _, .error _ => False
  | .error _, _ => True

theorem scanLe_iff {a b : Except ε α × Nat} : scanLe a b = true ↔ NoBetter a b := by
  rcases a with ⟨_ | _, i⟩ <;> rcases b with ⟨_ | _, j⟩ <;> simp [scanLe, NoBetter]

theorem NoBetter.trans {a b c : Except ε α × Nat} (h1 : NoBetter a b) (h2 : NoBetter b c) :
    NoBetter a c := by
  rcases a with ⟨_ | _, i⟩ <;> rcases b with ⟨_ | _, j⟩ <;> rcases c with ⟨_ | _, k⟩ <;>
    simp_all [NoBetter]
  omega

theorem NoBetter.total (a b : Except ε α × Nat) : NoBetter a b ∨ NoBetter b a := by
  rcases a with ⟨_ | _, i⟩ <;> rcases b with ⟨_ | _, j⟩ <;> simp [NoBetter]
  omega

theorem NoBetter.rfl' (a : Except ε α × Nat) : NoBetter a a := (NoBetter.total a a).elim id id

/-- The last one of the best. -/
theorem maxBy_best : ∀ (xs : List (Except ε α × Nat)) (x : Except ε α × Nat),
    ∃ l y r, x :: xs = l ++ y :: r ∧ maxBy scanLe (x :: xs) = some y ∧
      (∀ z ∈ l, NoBetter z y) ∧ ∀ z ∈ r, ¬NoBetter y z := by
  intro xs
  induction xs using List.reverseRecOn with
  | nil => exact fun x => ⟨[], x, [], rfl, rfl, nofun, nofun⟩
  | append_singleton xs b ih =>
    intro x
    obtain ⟨l, y, r, h1, h2, h3, h4⟩ := ih x
    have hf : maxBy scanLe (x :: (xs ++ [b])) = some (if scanLe y b then b else y) := by
      simp only [maxBy, Option.some.injEq] at h2 ⊢
      rw [List.foldl_append, h2]
      rfl
    by_cases hb : NoBetter y b
    · refine ⟨x :: xs, b, [], rfl, by rw [hf, if_pos (scanLe_iff.2 hb)], fun z hz => ?_, nofun⟩
      rw [h1] at hz
      rcases List.mem_append.1 hz with hz | hz
      · exact (h3 z hz).trans hb
      · cases hz with
        | head => exact hb
        | tail _ hz => exact ((NoBetter.total y z).resolve_left (h4 z hz)).trans hb
    · refine ⟨l, y, r ++ [b], by rw [← List.cons_append, h1]; simp, ?_, h3, fun z hz => ?_⟩
      · rw [hf, if_neg (fun h => hb (scanLe_iff.1 h))]
      · rcases List.mem_append.1 hz with hz | hz
        · exact h4 z hz
        · simp only [List.mem_singleton] at hz
          exact hz ▸ hb

/-- **C93.** `greedy_choice` gives the result of the last parser among those with the longest match.
Missing: that parsing goes on behind this match; it goes on where the last parser of all stopped. -/
theorem C93_partial {parsers : List (Scan ε α)} (hne : parsers ≠ []) (pos : Nat) :
    ∃ l p r stop, parsers = l ++ p :: r ∧ greedyChoice parsers pos = .ok ((p pos).1, stop) ∧
      (∀ q ∈ l, NoBetter (q pos) (p pos)) ∧ (∀ q ∈ r, ¬NoBetter (p pos) (q pos)) ∧
      ∀ last, parsers.getLast? = some last → stop = (last pos).2 := by
  cases parsers with
  | nil => exact absurd rfl hne
  | cons p0 ps =>
    obtain ⟨l, y, r, h1, h2, h3, h4⟩ := maxBy_best (ps.map fun p => p pos) (p0 pos)
    rw [← List.map_cons (f := fun p : Scan ε α => p pos)] at h1 h2
    obtain ⟨l', r', h5, rfl, h6⟩ := List.map_eq_append_iff.1 h1
    obtain ⟨p, r'', rfl, rfl, rfl⟩ := List.map_eq_cons_iff.1 h6
    cases hlast : (p0 :: ps).getLast? with
    | none => simp at hlast
    | some last =>
      refine ⟨l', p, r'', (last pos).2, h5, ?_, ?_, ?_, ?_⟩
      · unfold greedyChoice
        rw [hlast, h2]
      · exact fun q hq => h3 _ (List.mem_map_of_mem hq)
      · exact fun q hq => h4 _ (List.mem_map_of_mem hq)
      · intro last' hl
        cases hl
        rfl

/-- A parser for the beginning of a given text. -/
def scanText (text input : Str) : Scan Unit Str := fun pos =>
  if (input.drop pos).take text.length = text then (.ok text, pos + text.length) else (.error (), pos)

/-- **C93, negation.** With `ab` and `a` on `abc` the match is `ab`, but parsing goes on with `b`. -/
theorem C93_not : ∃ r stop, greedyChoice [scanText "ab".toList "abc".toList,
      scanText "a".toList "abc".toList] 0 = .ok (.ok r, stop) ∧ r = "ab".toList ∧ stop ≠ r.length :=
  ⟨"ab".toList, 1, by decide, rfl, by decide⟩

/-- The other way round it works. -/
example : greedyChoice [scanText "a".toList "abc".toList, scanText "ab".toList "abc".toList] 0 =
    .ok (.ok "ab".toList, 2) := by decide

end Aftermath
