import Verif.Proof.Remove
import Verif.Spec.Track

/-! # Property theorems C28 and C29: ranges tracked through edits -/

namespace Aftermath

/-! ## C28 -/

theorem startsWith_self (p : RowIndices) : startsWith p p = true := by
  induction p with
  | nil => rfl
  | cons x p ih => simp [startsWith]

theorem track_insert_same {cfg : Cfg} (r : MinRange) (k : Nat) (vs : List Node) :
    ∃ r', r.applyEdit cfg (.row ⟨.insert, ⟨r.rowIndices, k⟩, vs⟩) = .ok r' ∧
      r'.rowIndices = r.rowIndices ∧ (r'.start ≤ r'.stop ↔ r.start ≤ r.stop) ∧
      r'.lo = (if k < r.lo then r.lo + vs.length else r.lo) ∧
      r'.hi = (if k ≤ r.hi then r.hi + vs.length else r.hi) := by
  obtain ⟨q, a, b⟩ := r
  simp only [MinRange.applyEdit, BasicEdit.getRowIndicesEdit, RowEdit.getRowIndicesEdit, M.ok_bind,
    startsWith_self, Bool.not_true, Bool.false_eq_true, if_false, RowIndicesEdit.isInsert,
    and_true]
  have fin : ∀ a' b' : Nat, (a ≤ b → a' = (if k < a then a + vs.length else a) ∧
        b' = (if k ≤ b then b + vs.length else b)) →
      (¬ a ≤ b → b' = (if k < b then b + vs.length else b) ∧
        a' = (if k ≤ a then a + vs.length else a)) →
      (a' ≤ b' ↔ a ≤ b) ∧
      min a' b' = (if k < min a b then min a b + vs.length else min a b) ∧
      max a' b' = (if k ≤ max a b then max a b + vs.length else max a b) := by
    intro a' b' h1 h2
    by_cases hf : a ≤ b
    · obtain ⟨rfl, rfl⟩ := h1 hf
      rw [Nat.min_eq_left hf, Nat.max_eq_right hf]
      by_cases h1 : k < a <;> by_cases h2 : k ≤ b <;> simp only [h1, h2, if_true, if_false] <;>
        refine ⟨?_, ?_, ?_⟩ <;> first | trivial | omega
    · obtain ⟨rfl, rfl⟩ := h2 hf
      have hf' : b ≤ a := by omega
      rw [Nat.min_eq_right hf', Nat.max_eq_left hf']
      by_cases h1 : k < b <;> by_cases h2 : k ≤ a <;> simp only [h1, h2, if_true, if_false] <;>
        refine ⟨?_, ?_, ?_⟩ <;> first | trivial | omega
  by_cases hv : vs.length = 0
  · simp only [hv, Nat.add_zero, gt_iff_lt, Nat.lt_irrefl, decide_false, Bool.false_eq_true,
      if_false, Nat.sub_self, Nat.sub_zero] at fin ⊢
    by_cases hf : a ≤ b
    · simp only [hf, decide_true, if_true, M.ok_bind]
      refine ⟨_, rfl, rfl, ?_⟩
      have := fin (if k < a then max a k else a) (if k ≤ b then max b k else b)
        (fun _ => ⟨by split <;> omega, by split <;> omega⟩) (fun h => absurd hf h)
      exact ⟨iff_of_true (this.1.2 hf) trivial, this.2⟩
    · simp only [hf, decide_false, Bool.false_eq_true, if_false, M.ok_bind]
      refine ⟨_, rfl, rfl, ?_⟩
      have := fin (if k ≤ a then max a k else a) (if k < b then max b k else b)
        (fun h => absurd h hf) (fun _ => ⟨by split <;> omega, by split <;> omega⟩)
      exact ⟨iff_of_false (fun h => hf (this.1.1 h)) not_false, this.2⟩
  · have hv' : k + vs.length > k := by omega
    simp only [hv', decide_true, if_true, Nat.add_sub_cancel_left]
    by_cases hf : a ≤ b
    · simp only [hf, decide_true, if_true, M.ok_bind]
      refine ⟨_, rfl, rfl, ?_⟩
      have := fin _ _ (fun _ => ⟨rfl, rfl⟩) (fun h => absurd hf h)
      exact ⟨iff_of_true (this.1.2 hf) trivial, this.2⟩
    · simp only [hf, decide_false, Bool.false_eq_true, if_false, M.ok_bind]
      refine ⟨_, rfl, rfl, ?_⟩
      have := fin _ _ (fun h => absurd h hf) (fun _ => ⟨rfl, rfl⟩)
      exact ⟨iff_of_false (fun h => hf (this.1.1 h)) not_false, this.2⟩

theorem track_delete_same {cfg : Cfg} (r : MinRange) (k : Nat) (vs : List Node) :
    ∃ r', r.applyEdit cfg (.row ⟨.delete, ⟨r.rowIndices, k⟩, vs⟩) = .ok r' ∧
      r'.rowIndices = r.rowIndices ∧ (r.start ≤ r.stop → r'.start ≤ r'.stop) ∧
      (r.stop ≤ r.start → r'.stop ≤ r'.start) ∧
      r'.lo = (if k < r.lo then max (r.lo - vs.length) k else r.lo) ∧
      r'.hi = (if k < r.hi then max (r.hi - vs.length) k else r.hi) := by
  obtain ⟨q, a, b⟩ := r
  have hv' : ¬ (k > k + vs.length) := by omega
  simp only [MinRange.applyEdit, BasicEdit.getRowIndicesEdit, RowEdit.getRowIndicesEdit, M.ok_bind,
    startsWith_self, Bool.not_true, Bool.false_eq_true, if_false, RowIndicesEdit.isInsert,
    and_true, hv', decide_false, if_true]
  have mono : ∀ x y : Nat, x ≤ y → (if k < x then max (x - vs.length) k else x) ≤
      (if k ≤ y then max (y - vs.length) k else y) := by
    intro x y h
    by_cases h1 : k < x <;> by_cases h2 : k ≤ y <;> simp only [h1, h2, if_true, if_false] <;>
      omega
  have same : ∀ y : Nat, (if k ≤ y then max (y - vs.length) k else y) =
      (if k < y then max (y - vs.length) k else y) := by
    intro y
    by_cases h1 : k < y <;> by_cases h2 : k ≤ y <;> simp only [h1, h2, if_true, if_false] <;>
      omega
  simp only [Nat.add_sub_cancel_left]
  by_cases hf : a ≤ b
  · simp only [hf, decide_true, if_true, M.ok_bind]
    have hm := mono a b hf
    refine ⟨_, rfl, rfl, fun _ => hm, ?_, ?_, ?_⟩
    · intro h
      have : a = b := by omega
      subst this
      exact Nat.le_of_eq (same a)
    · have e : MinRange.lo ⟨q, a, b⟩ = a := Nat.min_eq_left hf
      simp only [e]; exact Nat.min_eq_left hm
    · have e : MinRange.hi ⟨q, a, b⟩ = b := Nat.max_eq_right hf
      simp only [e]; exact (Nat.max_eq_right hm).trans (same b)
  · simp only [hf, decide_false, Bool.false_eq_true, if_false, M.ok_bind]
    have hba : b ≤ a := by omega
    have hm := mono b a hba
    refine ⟨_, rfl, rfl, fun h => absurd h (by simp), fun _ => hm, ?_, ?_⟩
    · have e : MinRange.lo ⟨q, a, b⟩ = b := Nat.min_eq_right hba
      simp only [e]; exact Nat.min_eq_right hm
    · have e : MinRange.hi ⟨q, a, b⟩ = a := Nat.max_eq_left hba
      simp only [e]; exact (Nat.max_eq_left hm).trans (same a)

/-! Taking and dropping from a row with an insertion or a deletion. -/

theorem take_insert_le {row vs : Row} {k l : Nat} (hk : k ≤ row.length) (h : l ≤ k) :
    (row.take k ++ vs ++ row.drop k).take l = row.take l := by
  rw [List.append_assoc, List.take_append_of_le_length (by rw [List.length_take]; omega),
    List.take_take, Nat.min_eq_left h]

theorem take_insert_ge {row vs : Row} {k l : Nat} (hk : k ≤ row.length) (h : k ≤ l) :
    (row.take k ++ vs ++ row.drop k).take (l + vs.length) =
      row.take k ++ vs ++ (row.take l).drop k := by
  have : (row.take k ++ vs).length = k + vs.length := by
    rw [List.length_append, List.length_take]; omega
  rw [List.take_append, this, List.take_of_length_le (by omega), List.drop_take,
    show l + vs.length - (k + vs.length) = l - k by omega]

theorem drop_insert_le {row vs : Row} {k l : Nat} (hk : k ≤ row.length) (h : l ≤ k) :
    (row.take k ++ vs ++ row.drop k).drop l =
      (row.drop l).take (k - l) ++ vs ++ (row.drop l).drop (k - l) := by
  rw [List.append_assoc, List.drop_append_of_le_length (by rw [List.length_take]; omega),
    List.drop_take, List.drop_drop, show l + (k - l) = k by omega, List.append_assoc]

theorem drop_insert_ge {row vs : Row} {k l : Nat} (hk : k ≤ row.length) (h : k ≤ l) :
    (row.take k ++ vs ++ row.drop k).drop (l + vs.length) = row.drop l := by
  have : (row.take k ++ vs).length = k + vs.length := by
    rw [List.length_append, List.length_take]; omega
  rw [List.drop_append, this, List.drop_eq_nil_of_le (by omega), List.drop_drop, List.nil_append,
    show k + (l + vs.length - (k + vs.length)) = l by omega]

/-- C28, insertion: the inserted nodes go to exactly one of the three parts of the row (left of
the range, inside, right of it): to the inside if they are inserted at one of the two ends or
between them. The other parts stay, the range stays valid and keeps its direction. -/
theorem C28_insert (cfg : Cfg) {r : MinRange} {row : Row} {k : Nat} (vs : List Node)
    (hr : r.hi ≤ row.length) (hk : k ≤ row.length) :
    ∃ r', r.applyEdit cfg (.row ⟨.insert, ⟨r.rowIndices, k⟩, vs⟩) = .ok r' ∧
      r'.rowIndices = r.rowIndices ∧ (r'.start ≤ r'.stop ↔ r.start ≤ r.stop) ∧
      r'.hi ≤ (row.take k ++ vs ++ row.drop k).length ∧
      r'.before (row.take k ++ vs ++ row.drop k) =
        (if k < r.lo then (r.before row).take k ++ vs ++ (r.before row).drop k else r.before row) ∧
      r'.marked (row.take k ++ vs ++ row.drop k) =
        (if r.lo ≤ k ∧ k ≤ r.hi then
          (r.marked row).take (k - r.lo) ++ vs ++ (r.marked row).drop (k - r.lo)
        else r.marked row) ∧
      r'.after (row.take k ++ vs ++ row.drop k) =
        (if r.hi < k then
          (r.after row).take (k - r.hi) ++ vs ++ (r.after row).drop (k - r.hi)
        else r.after row) := by
  obtain ⟨r', h1, h2, h3, h4, h5⟩ := track_insert_same (cfg := cfg) r k vs
  have hlh : r.lo ≤ r.hi := by simp only [MinRange.lo, MinRange.hi]; omega
  have hlen : (row.take k).length = k := by rw [List.length_take]; omega
  refine ⟨r', h1, h2, h3, ?_, ?_, ?_, ?_⟩
  · rw [h5]; simp only [List.length_append, List.length_drop, hlen]; split <;> omega
  · simp only [MinRange.before, h4]
    by_cases hlt : k < r.lo
    · rw [if_pos hlt, if_pos hlt, take_insert_ge hk (by omega), List.take_take,
        Nat.min_eq_left (by omega)]
    · rw [if_neg hlt, if_neg hlt, take_insert_le hk (by omega)]
  · simp only [MinRange.marked, h4, h5]
    by_cases h6 : k < r.lo
    · rw [if_pos h6, if_pos (by omega), if_neg (by omega), take_insert_ge hk (by omega)]
      have : (row.take k ++ vs).length = k + vs.length := by rw [List.length_append, hlen]
      rw [List.drop_append, this, List.drop_eq_nil_of_le (by omega), List.nil_append,
        List.drop_drop, show k + (r.lo + vs.length - (k + vs.length)) = r.lo by omega]
    · rw [if_neg h6]
      by_cases h7 : k ≤ r.hi
      · rw [if_pos h7, if_pos ⟨by omega, h7⟩, take_insert_ge hk h7]
        have e : row.take k = (row.take r.hi).take k := by
          rw [List.take_take, Nat.min_eq_left h7]
        rw [e, drop_insert_le (by rw [List.length_take]; omega) (by omega)]
      · rw [if_neg h7, if_neg (by omega), take_insert_le hk (by omega)]
  · simp only [MinRange.after, h5]
    by_cases h7 : k ≤ r.hi
    · rw [if_pos h7, if_neg (by omega), drop_insert_ge hk h7]
    · rw [if_neg h7, if_pos (by omega), drop_insert_le hk (by omega)]

/-- A backwards range around the middle symbol, and an insertion at its left end. -/
example : (MinRange.applyEdit .dev ⟨[], 2, 1⟩ (.row ⟨.insert, ⟨[], 1⟩, [.symbol ['x']]⟩)) =
    .ok ⟨[], 3, 1⟩ := by decide +kernel

/-- C28, deletion: each of the three parts of the row loses exactly its own deleted nodes, the
range stays valid and keeps its direction. -/
theorem C28_delete (cfg : Cfg) {r : MinRange} {row : Row} {k : Nat} (vs : List Node)
    (hr : r.hi ≤ row.length) (hk : k + vs.length ≤ row.length) :
    ∃ r', r.applyEdit cfg (.row ⟨.delete, ⟨r.rowIndices, k⟩, vs⟩) = .ok r' ∧
      r'.rowIndices = r.rowIndices ∧ (r.start ≤ r.stop → r'.start ≤ r'.stop) ∧
      (r.stop ≤ r.start → r'.stop ≤ r'.start) ∧
      r'.hi ≤ (row.take k ++ row.drop (k + vs.length)).length ∧
      r'.before (row.take k ++ row.drop (k + vs.length)) =
        cutFrom 0 (r.before row) k vs.length ∧
      r'.marked (row.take k ++ row.drop (k + vs.length)) =
        cutFrom r.lo (r.marked row) k vs.length ∧
      r'.after (row.take k ++ row.drop (k + vs.length)) =
        cutFrom r.hi (r.after row) k vs.length := by
  obtain ⟨r', h1, h2, h3, h3', h4, h5⟩ := track_delete_same (cfg := cfg) r k vs
  have hlh : r.lo ≤ r.hi := by simp only [MinRange.lo, MinRange.hi]; omega
  have hlen : (row.take k).length = k := by rw [List.length_take]; omega
  generalize vs.length = n at *
  -- taking and dropping from the row without the deleted nodes
  have ht : ∀ x, x ≤ row.length → (row.take k ++ row.drop (k + n)).take
      (if k < x then max (x - n) k else x) = cutFrom 0 (row.take x) k n := by
    intro x hx
    simp only [cutFrom, Nat.sub_zero]
    by_cases h6 : k < x
    · have e : min k x = k := by omega
      rw [if_pos h6, List.take_append, hlen, List.take_of_length_le (by omega), List.take_take,
        e, List.drop_take]
      congr 2; omega
    · have e : min k x = x := by omega
      have e' : min x k = x := by omega
      rw [if_neg h6, List.take_append_of_le_length (by omega), List.take_take, List.take_take,
        e, e', List.drop_eq_nil_of_le (by rw [List.length_take]; omega), List.append_nil]
  have hd : ∀ (row : Row) x, k + n ≤ row.length → (row.take k ++ row.drop (k + n)).drop
      (if k < x then max (x - n) k else x) = cutFrom x (row.drop x) k n := by
    intro row x hx
    have hlen : (row.take k).length = k := by rw [List.length_take]; omega
    simp only [cutFrom]
    by_cases h6 : k < x
    · rw [if_pos h6, List.drop_append, hlen, List.drop_eq_nil_of_le (by omega), List.drop_drop,
        List.drop_drop, show k - x = 0 by omega, List.take_zero]
      congr 2; omega
    · rw [if_neg h6, List.drop_append_of_le_length (by omega), List.drop_take, List.drop_drop]
      congr 2; omega
  refine ⟨r', h1, h2, h3, h3', ?_, ?_, ?_, ?_⟩
  · rw [h5]; simp only [List.length_append, List.length_drop, hlen]; split <;> omega
  · simp only [MinRange.before, h4]; exact ht _ (by omega)
  · simp only [MinRange.marked, h4, h5]
    rw [ht _ hr]
    simp only [cutFrom, Nat.sub_zero]
    generalize hrow' : row.take r.hi = row'
    have hl' : row'.length = r.hi := by rw [← hrow', List.length_take]; omega
    by_cases h7 : k + n ≤ row'.length
    · exact hd row' _ h7
    · have hnil : row'.drop (k + n) = [] := List.drop_eq_nil_of_le (by omega)
      have hnil' : (row'.drop r.lo).drop (k + n - r.lo) = [] :=
        List.drop_eq_nil_of_le (by rw [List.length_drop]; omega)
      rw [hnil, List.append_nil, hnil', List.append_nil]
      by_cases h8 : k < r.lo
      · rw [if_pos h8, show k - r.lo = 0 by omega, List.take_zero,
          List.drop_eq_nil_of_le (by rw [List.length_take]; omega)]
      · rw [if_neg h8, List.drop_take]
  · simp only [MinRange.after, h5]; exact hd _ _ hk

example : (MinRange.applyEdit .dev ⟨[(0, 0)], 1, 4⟩
    (.row ⟨.delete, ⟨[(0, 0)], 3⟩, [.symbol ['x'], .symbol ['y']]⟩)) = .ok ⟨[(0, 0)], 1, 3⟩ := by
  decide +kernel

/-! ## C29 -/

/-- What tracking through an insertion in an enclosing row has to give: the shifted range denotes
the same row in the edited tree. -/
theorem shiftedByInsert_same {root root' row : Row} {q : RowIndices} {i j : Nat} {p : RowIndices}
    {start stop k : Nat} {vs : List Node} (hk : k ≤ row.length)
    (h : rowAt root q = some row)
    (h' : rowAt root' q = some (row.take k ++ vs ++ row.drop k)) :
    rowAt root' (shiftedByInsert q i j p start stop k vs.length).rowIndices =
      rowAt root (q ++ (i, j) :: p) := by
  have hlen : (row.take k).length = k := by rw [List.length_take]; omega
  simp only [shiftedByInsert, rowAt_append, h, h', Option.bind_some, rowAt]
  have : (row.take k ++ vs ++ row.drop k)[if k ≤ i then i + vs.length else i]? = row[i]? := by
    by_cases hi : k ≤ i
    · rw [if_pos hi, List.getElem?_append_right (by rw [List.length_append, hlen]; omega),
        List.getElem?_drop, List.length_append, hlen]
      congr 1; omega
    · rw [if_neg hi, List.append_assoc, List.getElem?_append_left (by omega),
        List.getElem?_take, if_pos (by omega)]
  rw [this]

/-- What tracking through a deletion in an enclosing row has to give: unless the element it is in
was deleted, the shifted range denotes the same row in the edited tree. -/
theorem shiftedByDelete_same {root root' row : Row} {q : RowIndices} {i j : Nat} {p : RowIndices}
    {start stop k n : Nat} (hk : k + n ≤ row.length) (hi : ¬ (k ≤ i ∧ i < k + n))
    (h : rowAt root q = some row)
    (h' : rowAt root' q = some (row.take k ++ row.drop (k + n))) :
    rowAt root' (shiftedByDelete q i j p start stop k n).rowIndices =
      rowAt root (q ++ (i, j) :: p) := by
  have hlen : (row.take k).length = k := by rw [List.length_take]; omega
  rw [shiftedByDelete, if_neg hi]
  simp only [rowAt_append, h, h', Option.bind_some, rowAt]
  have : (row.take k ++ row.drop (k + n))[if k + n ≤ i then i - n else i]? = row[i]? := by
    by_cases hi : k + n ≤ i
    · rw [if_pos hi, List.getElem?_append_right (by omega), List.getElem?_drop, hlen]
      congr 1; omega
    · rw [if_neg hi, List.getElem?_append_left (by omega), List.getElem?_take, if_pos (by omega)]
  rw [this]

theorem startsWith_append (q p : RowIndices) : startsWith (q ++ p) q = true := by
  simp [startsWith]

/-- C29 is false for edits of the root row: tracking any range inside any element through any
insertion or deletion of the root row panics, in both profiles. (The bound only excludes paths
too long for the address space.) -/
theorem C29_root_panics (cfg : Cfg) (r : MinRange) (t : EditType) (k : Nat) (vs : List Node)
    (hr : r.rowIndices ≠ []) (hlen : cfg.checks = false → r.rowIndices.length < 2 ^ cfg.bits) :
    r.applyEdit cfg (.row ⟨t, ⟨[], k⟩, vs⟩) =
      .error (if cfg.checks then .overflow else .unwrapNone) := by
  obtain ⟨q, a, b⟩ := r
  cases hq : q with
  | nil => exact absurd hq hr
  | cons ix p =>
    have hsub : (do
        let k ← usub cfg ([] : RowIndices).length 1
        munwrap (ix :: p)[k]?) = .error (if cfg.checks then .overflow else .unwrapNone) := by
      cases hc : cfg.checks with
      | true => simp [usub, hc]
      | false =>
        have := hlen hc
        simp only [hq] at this
        have hpos := Nat.two_pow_pos cfg.bits
        have hnone : (ix :: p)[2 ^ cfg.bits - 1]? = none := by
          rw [List.getElem?_eq_none_iff]; omega
        simp [usub, hc, hnone, munwrap]
    have hsub' : ∀ {α} (f : RowIndex → Nat → M α), (do
        let k ← usub cfg ([] : RowIndices).length 1
        let ix ← munwrap (ix :: p)[k]?
        f ix k) = .error (if cfg.checks then .overflow else .unwrapNone) := by
      intro α f
      cases hu : usub cfg ([] : RowIndices).length 1 with
      | error e => rw [hu] at hsub; simp only [M.error_bind] at hsub ⊢; rw [Except.error.inj hsub]
      | ok k =>
        rw [hu] at hsub
        simp only [M.ok_bind] at hsub ⊢
        rw [hsub]; rfl
    have hsw : startsWith (ix :: p) [] = true := rfl
    cases t <;>
      simp only [MinRange.applyEdit, BasicEdit.getRowIndicesEdit, RowEdit.getRowIndicesEdit,
        M.ok_bind, hsw, Bool.not_true, Bool.false_eq_true, if_false, reduceCtorEq, and_false,
        hsub', M.error_bind, ite_self]

/-- So C29 is false: in `a/b` with the caret in the numerator, inserting a symbol at the start of
the formula panics. -/
theorem C29_not : ¬ ∀ (root : Row) (r : MinRange) (k : Nat) (vs : List Node), ValidRange root r →
    k ≤ root.length → ∃ r', r.applyEdit .dev (.row ⟨.insert, ⟨[], k⟩, vs⟩) = .ok r' := by
  intro h
  obtain ⟨r', hr'⟩ := h [Node.fraction [.symbol ['a']] [.symbol ['b']]] ⟨[(0, 0)], 1, 1⟩ 0
    [.symbol ['x']] ⟨[.symbol ['a']], rfl, by decide, by decide⟩ (by decide)
  rw [C29_root_panics] at hr'
  · cases hr'
  · simp
  · intro h; cases h

/-- The result of tracking through an insertion in an enclosing row other than the root row. -/
theorem track_insert_above (cfg : Cfg) (q0 : RowIndices) (a b i j : Nat) (p : RowIndices)
    (start stop k : Nat) {vs : List Node} (hv : vs ≠ []) :
    (⟨q0 ++ [(a, b)] ++ (i, j) :: p, start, stop⟩ : MinRange).applyEdit cfg
        (.row ⟨.insert, ⟨q0 ++ [(a, b)], k⟩, vs⟩) =
      .ok ⟨q0 ++ [(if k ≤ a then a + vs.length else a, b)] ++ (i, j) :: p, start, stop⟩ := by
  have hpos : 0 < vs.length := List.length_pos_of_ne_nil hv
  have hins : k + vs.length > k := by omega
  have hne : q0 ++ [(a, b)] ++ (i, j) :: p ≠ q0 ++ [(a, b)] := by
    intro h; have := congrArg List.length h; simp at this
  have hget : (q0 ++ [(a, b)] ++ (i, j) :: p)[q0.length]? = some (a, b) := by simp
  have hset : (q0 ++ [(a, b)] ++ (i, j) :: p).set q0.length (a + vs.length, b) =
      q0 ++ [(a + vs.length, b)] ++ (i, j) :: p := by simp
  have hu : usub cfg (q0 ++ [(a, b)]).length 1 = .ok q0.length := by simp [usub]
  simp only [MinRange.applyEdit, BasicEdit.getRowIndicesEdit, RowEdit.getRowIndicesEdit,
    M.ok_bind, startsWith_append, Bool.not_true, Bool.false_eq_true, if_false, hne, and_false,
    RowIndicesEdit.isInsert, hins, decide_true, if_true, hu, hget, munwrap,
    Nat.add_sub_cancel_left, hset]
  by_cases hka : k ≤ a <;> by_cases hf : start ≤ stop <;>
    simp only [hka, hf, if_true, if_false, decide_true, decide_false, M.ok_bind,
      Bool.false_eq_true]

/-- C29, insertion in an enclosing row that is not the root row, exactly when the code is right:
when the insertion is to the right of the element the range is in, and also to the right of the
number `a` in the path at which the enclosing row itself is found (which has nothing to do with
it). In all other cases the range leads to another place. -/
theorem C29_insert_partial (cfg : Cfg) (q0 : RowIndices) (a b i j : Nat) (p : RowIndices)
    (start stop k : Nat) {vs : List Node} (hv : vs ≠ []) :
    (⟨q0 ++ [(a, b)] ++ (i, j) :: p, start, stop⟩ : MinRange).applyEdit cfg
        (.row ⟨.insert, ⟨q0 ++ [(a, b)], k⟩, vs⟩) =
      .ok (shiftedByInsert (q0 ++ [(a, b)]) i j p start stop k vs.length) ↔ a < k ∧ i < k := by
  have hpos : 0 < vs.length := List.length_pos_of_ne_nil hv
  rw [track_insert_above cfg q0 a b i j p start stop k hv]
  by_cases hka : k ≤ a <;> by_cases hki : k ≤ i <;>
    simp only [shiftedByInsert, hka, hki, if_true, if_false, Except.ok.injEq, MinRange.mk.injEq,
      List.append_assoc, List.append_cancel_left_eq, List.cons_append, List.nil_append,
      List.cons.injEq, Prod.mk.injEq, and_true, true_iff, and_self] <;> omega

/-- The formula `1/(2 + 3/4)` with the caret in the inner numerator and a symbol inserted after
the inner fraction: the good case. -/
example : (⟨[(0, 1), (0, 0)], 1, 1⟩ : MinRange).applyEdit .dev
    (.row ⟨.insert, ⟨[(0, 1)], 1⟩, [.symbol ['x']]⟩) = .ok ⟨[(0, 1), (0, 0)], 1, 1⟩ := by
  decide +kernel

/-- The same with the symbol inserted before the inner fraction: the outer entry is shifted. -/
example : (⟨[(0, 1), (0, 0)], 1, 1⟩ : MinRange).applyEdit .dev
    (.row ⟨.insert, ⟨[(0, 1)], 0⟩, [.symbol ['x']]⟩) = .ok ⟨[(1, 1), (0, 0)], 1, 1⟩ := by
  decide +kernel

/-- C29, deletion in an enclosing row that is not the root row, exactly when the code is right. -/
theorem C29_delete_partial (cfg : Cfg) (q0 : RowIndices) (a b i j : Nat) (p : RowIndices)
    (start stop k : Nat) {vs : List Node} (hv : vs ≠ []) :
    (⟨q0 ++ [(a, b)] ++ (i, j) :: p, start, stop⟩ : MinRange).applyEdit cfg
        (.row ⟨.delete, ⟨q0 ++ [(a, b)], k⟩, vs⟩) =
      .ok (shiftedByDelete (q0 ++ [(a, b)]) i j p start stop k vs.length) ↔
        (a < k ∧ i < k) ∨
          (k ≤ a ∧ a < k + vs.length ∧ k ≤ i ∧ i < k + vs.length) := by
  have hpos : 0 < vs.length := List.length_pos_of_ne_nil hv
  have hins : ¬ (k > k + vs.length) := by omega
  have hne : q0 ++ [(a, b)] ++ (i, j) :: p ≠ q0 ++ [(a, b)] := by
    intro h; have := congrArg List.length h; simp at this
  have hne' : ∀ x y z, q0 ++ [(a, b)] ≠ q0 ++ ((x, b) :: (y, z) :: p) := by
    intro x y z h; have := congrArg List.length h; simp at this
  have hne'' : ∀ x y z, q0 ++ ((x, b) :: (y, z) :: p) ≠ q0 ++ [(a, b)] := by
    intro x y z h; have := congrArg List.length h; simp at this
  have hget : (q0 ++ [(a, b)] ++ (i, j) :: p)[q0.length]? = some (a, b) := by simp
  have hset : (q0 ++ [(a, b)] ++ (i, j) :: p).set q0.length (a - vs.length, b) =
      q0 ++ [(a - vs.length, b)] ++ (i, j) :: p := by simp
  have hu : usub cfg (q0 ++ [(a, b)]).length 1 = .ok q0.length := by simp [usub]
  simp only [MinRange.applyEdit, BasicEdit.getRowIndicesEdit, RowEdit.getRowIndicesEdit,
    M.ok_bind, startsWith_append, Bool.not_true, Bool.false_eq_true, if_false, hne, and_false,
    RowIndicesEdit.isInsert, hins, decide_false, hu, hget, munwrap,
    Nat.add_sub_cancel_left, hset]
  have three : ∀ x : Nat, (x < k ∧ ¬ k ≤ x ∧ x < k + vs.length ∧ ¬ k + vs.length ≤ x) ∨
      (¬ x < k ∧ k ≤ x ∧ x < k + vs.length ∧ ¬ k + vs.length ≤ x) ∨
      (¬ x < k ∧ k ≤ x ∧ ¬ x < k + vs.length ∧ k + vs.length ≤ x) := by
    intro x; omega
  obtain ⟨a1, a2, a3, a4⟩ | ⟨a1, a2, a3, a4⟩ | ⟨a1, a2, a3, a4⟩ := three a <;>
  obtain ⟨i1, i2, i3, i4⟩ | ⟨i1, i2, i3, i4⟩ | ⟨i1, i2, i3, i4⟩ := three i <;>
  by_cases hf : start ≤ stop <;>
    simp only [shiftedByDelete, a1, a2, a3, a4, i1, i2, i3, i4, hf, if_true, if_false, decide_true,
      decide_false, M.ok_bind, Bool.false_eq_true, Except.ok.injEq, MinRange.mk.injEq,
      List.append_assoc, List.append_cancel_left_eq, List.cons_append, List.nil_append,
      List.cons.injEq, Prod.mk.injEq, hne', hne'', and_true, true_and, false_and, and_false,
      true_iff, iff_true, false_iff, iff_false, and_self, or_self, or_false, false_or, or_true,
      true_or, reduceCtorEq, not_false_eq_true, List.ne_cons_self] <;> omega

example : (⟨[(0, 1), (1, 0)], 1, 1⟩ : MinRange).applyEdit .dev
    (.row ⟨.delete, ⟨[(0, 1)], 0⟩, [.symbol ['x'], .symbol ['y']]⟩) = .ok ⟨[(0, 1)], 0, 0⟩ := by
  decide +kernel

/-- C29, unrelated rows: an edit of a row that does not enclose the range does not move it. -/
theorem C29_unrelated_partial (cfg : Cfg) (r : MinRange) (t : EditType) (q : RowIndices) (k : Nat)
    (vs : List Node) (h : ¬ q <+: r.rowIndices) :
    r.applyEdit cfg (.row ⟨t, ⟨q, k⟩, vs⟩) = .ok r := by
  have : startsWith r.rowIndices q = false := by
    rw [startsWith, Bool.eq_false_iff, Ne, List.isPrefixOf_iff_prefix]; exact h
  cases t <;>
    simp only [MinRange.applyEdit, BasicEdit.getRowIndicesEdit, RowEdit.getRowIndicesEdit,
      M.ok_bind, this, Bool.not_false, if_true]

example : ¬ ([(1, 0)] : RowIndices) <+: [(1, 1), (0, 0)] := by decide

end Aftermath
