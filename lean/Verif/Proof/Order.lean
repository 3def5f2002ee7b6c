import Verif.Proof.Basic

/-! # The position order -/

namespace Aftermath

/-- The comparison of minimal positions. -/
abbrev MinPos.cmp (a b : MinPos) : Ordering :=
  cmpIndicesAndOffset a.rowIndices a.offset b.rowIndices b.offset

theorem cmp_nil_nil (o o' : Nat) : cmpIndicesAndOffset [] o [] o' = compare o o' := by
  simp only [cmpIndicesAndOffset]
  simp [RowIndices.cmp]
  rcases Nat.lt_trichotomy o o' with h | h | h
  · rw [Nat.compare_eq_lt.2 h, Nat.compare_eq_lt.2 (show o * 2 < o' * 2 by omega)]
  · subst h; simp
  · rw [Nat.compare_eq_gt.2 h, Nat.compare_eq_gt.2 (show o' * 2 < o * 2 by omega)]

theorem cmp_nil_cons (o o' : Nat) (b : RowIndex) (bs : RowIndices) :
    cmpIndicesAndOffset [] o (b :: bs) o' = if o ≤ b.1 then .lt else .gt := by
  simp only [cmpIndicesAndOffset]
  simp [RowIndices.cmp]
  split
  · rw [Nat.compare_eq_lt]; show o * 2 < b.1 * 2 + 1; omega
  · rw [Nat.compare_eq_gt]; show b.1 * 2 + 1 < o * 2; omega

theorem cmp_cons_nil (o o' : Nat) (a : RowIndex) (as : RowIndices) :
    cmpIndicesAndOffset (a :: as) o [] o' = if o' ≤ a.1 then .gt else .lt := by
  simp only [cmpIndicesAndOffset]
  simp [RowIndices.cmp]
  split
  · rw [Nat.compare_eq_gt]; show o' * 2 < a.1 * 2 + 1; omega
  · rw [Nat.compare_eq_lt]; show a.1 * 2 + 1 < o' * 2; omega

theorem cmp_cons_cons (o o' : Nat) (a b : RowIndex) (as bs : RowIndices) :
    cmpIndicesAndOffset (a :: as) o (b :: bs) o' =
      (RowIndex.cmp a b).then (cmpIndicesAndOffset as o bs o') := by
  have hmin : min (as.length + 1) (bs.length + 1) = min as.length bs.length + 1 := by omega
  simp only [cmpIndicesAndOffset, List.length_cons, hmin, List.take_succ_cons,
    List.getElem?_cons_succ, RowIndices.cmp]
  cases h : RowIndex.cmp a b <;> simp [Ordering.then]

theorem rowIndex_cmp_lt {a b : RowIndex} :
    RowIndex.cmp a b = .lt ↔ a.1 < b.1 ∨ (a.1 = b.1 ∧ a.2 < b.2) := by
  simp only [RowIndex.cmp, Ordering.then_eq_lt, Nat.compare_eq_lt, Nat.compare_eq_eq]

theorem rowIndex_cmp_eq {a b : RowIndex} : RowIndex.cmp a b = .eq ↔ a = b := by
  simp only [RowIndex.cmp, Ordering.then_eq_eq, Nat.compare_eq_eq]
  exact ⟨fun ⟨h, h'⟩ => Prod.ext h h', fun h => by simp [h]⟩

theorem rowIndex_cmp_swap (a b : RowIndex) : (RowIndex.cmp a b).swap = RowIndex.cmp b a := by
  simp only [RowIndex.cmp, Ordering.swap_then, Nat.compare_swap]

theorem cmp_swap (p q : RowIndices) (o o' : Nat) :
    (cmpIndicesAndOffset p o q o').swap = cmpIndicesAndOffset q o' p o := by
  induction p generalizing q with
  | nil =>
    cases q with
    | nil => simp [cmp_nil_nil, Nat.compare_swap]
    | cons b bs => rw [cmp_nil_cons, cmp_cons_nil]; split <;> rfl
  | cons a as ih =>
    cases q with
    | nil => rw [cmp_nil_cons, cmp_cons_nil]; split <;> rfl
    | cons b bs => rw [cmp_cons_cons, cmp_cons_cons, Ordering.swap_then, rowIndex_cmp_swap, ih]

theorem cmp_eq {p q : RowIndices} {o o' : Nat} :
    cmpIndicesAndOffset p o q o' = .eq ↔ p = q ∧ o = o' := by
  induction p generalizing q with
  | nil =>
    cases q with
    | nil => simp [cmp_nil_nil]
    | cons b bs => rw [cmp_nil_cons]; split <;> simp
  | cons a as ih =>
    cases q with
    | nil => rw [cmp_cons_nil]; split <;> simp
    | cons b bs =>
      rw [cmp_cons_cons, Ordering.then_eq_eq, rowIndex_cmp_eq, ih]
      simp [and_assoc]

theorem cmp_lt_nil_nil {o o' : Nat} : cmpIndicesAndOffset [] o [] o' = .lt ↔ o < o' := by
  rw [cmp_nil_nil, Nat.compare_eq_lt]

theorem cmp_lt_nil_cons {o o' : Nat} {b : RowIndex} {bs : RowIndices} :
    cmpIndicesAndOffset [] o (b :: bs) o' = .lt ↔ o ≤ b.1 := by
  rw [cmp_nil_cons]; split <;> simp_all

theorem cmp_lt_cons_nil {o o' : Nat} {a : RowIndex} {as : RowIndices} :
    cmpIndicesAndOffset (a :: as) o [] o' = .lt ↔ a.1 < o' := by
  rw [cmp_cons_nil]; split <;> simp_all

theorem cmp_lt_cons_cons {o o' : Nat} {a b : RowIndex} {as bs : RowIndices} :
    cmpIndicesAndOffset (a :: as) o (b :: bs) o' = .lt ↔
      a.1 < b.1 ∨ (a.1 = b.1 ∧ a.2 < b.2) ∨ (a = b ∧ cmpIndicesAndOffset as o bs o' = .lt) := by
  rw [cmp_cons_cons, Ordering.then_eq_lt, rowIndex_cmp_lt, rowIndex_cmp_eq, or_assoc]

theorem cmp_trans {p q r : RowIndices} {o o' o'' : Nat}
    (h1 : cmpIndicesAndOffset p o q o' = .lt) (h2 : cmpIndicesAndOffset q o' r o'' = .lt) :
    cmpIndicesAndOffset p o r o'' = .lt := by
  induction p generalizing q r with
  | nil =>
    cases q with
    | nil =>
      cases r with
      | nil => rw [cmp_lt_nil_nil] at *; omega
      | cons c cs => rw [cmp_lt_nil_nil] at h1; rw [cmp_lt_nil_cons] at *; omega
    | cons b bs =>
      rw [cmp_lt_nil_cons] at h1
      cases r with
      | nil => rw [cmp_lt_cons_nil] at h2; rw [cmp_lt_nil_nil]; omega
      | cons c cs =>
        rw [cmp_lt_cons_cons] at h2; rw [cmp_lt_nil_cons]
        rcases h2 with h | h | h
        · omega
        · omega
        · rw [← h.1]; omega
  | cons a as ih =>
    cases q with
    | nil =>
      rw [cmp_lt_cons_nil] at h1
      cases r with
      | nil => rw [cmp_lt_nil_nil] at h2; rw [cmp_lt_cons_nil]; omega
      | cons c cs => rw [cmp_lt_nil_cons] at h2; rw [cmp_lt_cons_cons]; exact Or.inl (by omega)
    | cons b bs =>
      rw [cmp_lt_cons_cons] at h1
      cases r with
      | nil =>
        rw [cmp_lt_cons_nil] at *
        rcases h1 with h | h | h
        · omega
        · omega
        · rw [h.1]; omega
      | cons c cs =>
        rw [cmp_lt_cons_cons] at *
        rcases h1 with h | h | ⟨h, h'⟩
        · rcases h2 with g | g | ⟨g, g'⟩
          · exact Or.inl (by omega)
          · exact Or.inl (by omega)
          · subst g; exact Or.inl h
        · rcases h2 with g | g | ⟨g, g'⟩
          · exact Or.inl (by omega)
          · exact Or.inr (Or.inl (by omega))
          · subst g; exact Or.inr (Or.inl h)
        · subst h
          rcases h2 with g | g | ⟨g, g'⟩
          · exact Or.inl g
          · exact Or.inr (Or.inl g)
          · exact Or.inr (Or.inr ⟨g, ih h' g'⟩)

theorem cmp_gt {p q : RowIndices} {o o' : Nat} :
    cmpIndicesAndOffset p o q o' = .gt ↔ cmpIndicesAndOffset q o' p o = .lt := by
  rw [← cmp_swap p q o o']
  cases cmpIndicesAndOffset p o q o' <;> simp

/-! ## The list of all positions -/

theorem cmp_under (ix : RowIndex) (a b : MinPos) :
    MinPos.cmp (a.under ix) (b.under ix) = MinPos.cmp a b := by
  simp only [MinPos.cmp, MinPos.under, cmp_cons_cons]
  rw [rowIndex_cmp_eq.2 rfl]; rfl

mutual
theorem mem_rowPositions (i : Nat) (r : List Node) (p : MinPos) :
    p ∈ rowPositions i r ↔ (p.rowIndices = [] ∧ i ≤ p.offset ∧ p.offset ≤ i + r.length) ∨
      (∃ k n, r[k]? = some n ∧ p ∈ nodePositions (i + k) n) := by
  cases r with
  | nil =>
    obtain ⟨ri, o⟩ := p
    simp [rowPositions]; omega
  | cons n ns =>
    simp only [rowPositions, List.mem_cons, List.mem_append]
    rw [mem_rowPositions (i + 1) ns p]
    constructor
    · rintro (h | h | h | ⟨k, m, h1, h2⟩)
      · left; subst h; simp
      · right; exact ⟨0, n, rfl, h⟩
      · left; refine ⟨h.1, by omega, ?_⟩; simp only [List.length_cons]; omega
      · right; exact ⟨k + 1, m, h1, by rw [show i + (k + 1) = i + 1 + k by omega]; exact h2⟩
    · rintro (⟨h1, h2, h3⟩ | ⟨k, m, h1, h2⟩)
      · simp only [List.length_cons] at h3
        by_cases h : p.offset = i
        · left; obtain ⟨ri, o⟩ := p; simp only at h h1; subst h h1; rfl
        · right; right; left; exact ⟨h1, by omega, by omega⟩
      · cases k with
        | zero => simp only [List.getElem?_cons_zero, Option.some.injEq] at h1
                  subst h1; right; left; exact h2
        | succ k => right; right; right
                    exact ⟨k, m, h1, by rw [show i + 1 + k = i + (k + 1) by omega]; exact h2⟩

theorem mem_nodePositions (i : Nat) (n : Node) (p : MinPos) :
    p ∈ nodePositions i n ↔ ∃ v cells w j c q, n = .container v cells w ∧ cells[j]? = some c ∧
      q ∈ rowPositions 0 c ∧ p = MinPos.under (i, j) q := by
  cases n with
  | symbol s => simp [nodePositions]
  | container v cells w =>
    simp only [nodePositions]
    rw [mem_cellsPositions i 0 cells p]
    constructor
    · rintro ⟨j, c, q, h1, h2, h3⟩
      exact ⟨v, cells, w, j, c, q, rfl, h1, h2, by simpa using h3⟩
    · rintro ⟨v', cells', w', j, c, q, h, h1, h2, h3⟩
      cases h
      exact ⟨j, c, q, h1, h2, by simpa using h3⟩

theorem mem_cellsPositions (i j0 : Nat) (cells : List (List Node)) (p : MinPos) :
    p ∈ cellsPositions i j0 cells ↔ ∃ j c q, cells[j]? = some c ∧
      q ∈ rowPositions 0 c ∧ p = MinPos.under (i, j0 + j) q := by
  cases cells with
  | nil => simp [cellsPositions]
  | cons c cs =>
    simp only [cellsPositions, List.mem_append, List.mem_map]
    rw [mem_cellsPositions i (j0 + 1) cs p]
    constructor
    · rintro (⟨q, h1, h2⟩ | ⟨j, c', q, h1, h2, h3⟩)
      · exact ⟨0, c, q, rfl, h1, h2.symm⟩
      · exact ⟨j + 1, c', q, h1, h2, by rw [show j0 + (j + 1) = j0 + 1 + j by omega]; exact h3⟩
    · rintro ⟨j, c', q, h1, h2, h3⟩
      cases j with
      | zero => simp only [List.getElem?_cons_zero, Option.some.injEq] at h1
                subst h1; left; exact ⟨q, h2, h3.symm⟩
      | succ j => right
                  exact ⟨j, c', q, h1, h2,
                    by rw [show j0 + 1 + j = j0 + (j + 1) by omega]; exact h3⟩
end

theorem mem_positions_valid {root : Row} {p : MinPos} : p ∈ positions root ↔ ValidPos root p := by
  obtain ⟨ri, o⟩ := p
  induction ri generalizing root with
  | nil =>
    simp only [positions, ValidPos]
    rw [mem_rowPositions]
    constructor
    · rintro (⟨-, -, h⟩ | ⟨k, n, h1, h2⟩)
      · exact ⟨root, rfl, by simpa using h⟩
      · obtain ⟨v, cells, w, j, c, q, -, -, -, h⟩ := (mem_nodePositions _ _ _).1 h2
        simp [MinPos.under] at h
    · rintro ⟨r, h1, h2⟩
      simp at h1; subst h1
      left; exact ⟨rfl, Nat.zero_le _, by simpa using h2⟩
  | cons ix p ih =>
    obtain ⟨i, j⟩ := ix
    simp only [positions, ValidPos]
    rw [mem_rowPositions]
    constructor
    · rintro (⟨h, -, -⟩ | ⟨k, n, h1, h2⟩)
      · cases h
      · obtain ⟨v, cells, w, j', c, q, rfl, h3, h4, h5⟩ := (mem_nodePositions _ _ _).1 h2
        simp only [MinPos.under, Nat.zero_add, MinPos.mk.injEq, List.cons.injEq,
          Prod.mk.injEq] at h5
        obtain ⟨⟨⟨rfl, rfl⟩, rfl⟩, rfl⟩ := h5
        obtain ⟨r, h6, h7⟩ := ih.1 h4
        exact ⟨r, rowAt_cons.2 ⟨_, _, _, _, h1, h3, h6⟩, h7⟩
    · rintro ⟨r, h1, h2⟩
      obtain ⟨v, cells, w, c, hi, hc, h⟩ := rowAt_cons.1 h1
      right
      refine ⟨i, _, hi, (mem_nodePositions _ _ _).2 ⟨v, cells, w, j, c, ⟨p, o⟩, rfl, hc, ?_, ?_⟩⟩
      · exact ih.2 ⟨r, h, h2⟩
      · simp [MinPos.under]

mutual
theorem rowPositions_sorted (i : Nat) (r : List Node) :
    (rowPositions i r).Pairwise (fun a b => MinPos.cmp a b = .lt) := by
  cases r with
  | nil => simp [rowPositions]
  | cons n ns =>
    simp only [rowPositions]
    have key : ∀ p ∈ nodePositions i n, ∃ ix q, p = MinPos.under ix q ∧ ix.1 = i := by
      intro p hp
      obtain ⟨v, cells, w, j, c, q, -, -, -, h⟩ := (mem_nodePositions _ _ _).1 hp
      exact ⟨(i, j), q, h, rfl⟩
    have key2 : ∀ p ∈ rowPositions (i + 1) ns,
        (p.rowIndices = [] ∧ i < p.offset) ∨ ∃ ix q, p = MinPos.under ix q ∧ i < ix.1 := by
      intro p hp
      rcases (mem_rowPositions _ _ _).1 hp with h | ⟨k, m, -, h⟩
      · exact Or.inl ⟨h.1, by omega⟩
      · obtain ⟨v, cells, w, j, c, q, -, -, -, h⟩ := (mem_nodePositions _ _ _).1 h
        exact Or.inr ⟨(i + 1 + k, j), q, h, by simp only; omega⟩
    refine List.pairwise_cons.2 ⟨?_, ?_⟩
    · intro p hp
      rcases List.mem_append.1 hp with hp | hp
      · obtain ⟨ix, q, rfl, h⟩ := key p hp
        exact cmp_lt_nil_cons.2 (show i ≤ ix.1 by omega)
      · rcases key2 p hp with ⟨h1, h2⟩ | ⟨ix, q, rfl, h⟩
        · simp only [MinPos.cmp, h1]; exact cmp_lt_nil_nil.2 h2
        · exact cmp_lt_nil_cons.2 (show i ≤ ix.1 by omega)
    · refine List.pairwise_append.2 ⟨nodePositions_sorted i n, rowPositions_sorted (i + 1) ns, ?_⟩
      intro p hp p' hp'
      obtain ⟨ix, q, rfl, h⟩ := key p hp
      rcases key2 p' hp' with ⟨h1, h2⟩ | ⟨ix', q', rfl, h'⟩
      · simp only [MinPos.cmp, h1]; exact cmp_lt_cons_nil.2 (by omega)
      · exact cmp_lt_cons_cons.2 (Or.inl (by omega))

theorem nodePositions_sorted (i : Nat) (n : Node) :
    (nodePositions i n).Pairwise (fun a b => MinPos.cmp a b = .lt) := by
  cases n with
  | symbol s => simp [nodePositions]
  | container v cells w => simp only [nodePositions]; exact cellsPositions_sorted i 0 cells

theorem cellsPositions_sorted (i j : Nat) (cells : List (List Node)) :
    (cellsPositions i j cells).Pairwise (fun a b => MinPos.cmp a b = .lt) := by
  cases cells with
  | nil => simp [cellsPositions]
  | cons c cs =>
    simp only [cellsPositions]
    refine List.pairwise_append.2 ⟨?_, cellsPositions_sorted i (j + 1) cs, ?_⟩
    · rw [List.pairwise_map]
      exact (rowPositions_sorted 0 c).imp fun h => by rw [cmp_under]; exact h
    · intro p hp p' hp'
      obtain ⟨q, -, rfl⟩ := List.mem_map.1 hp
      obtain ⟨j', c', q', -, -, rfl⟩ := (mem_cellsPositions _ _ _ _).1 hp'
      refine cmp_lt_cons_cons.2 (Or.inr (Or.inl ⟨rfl, ?_⟩))
      simp only; omega
end

end Aftermath
