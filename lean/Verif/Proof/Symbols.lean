import Verif.Proof.Remove

/-! # Symbols of a tree in reading order under edits -/

namespace Aftermath

theorem rowSymbols_append (a b : List Node) : rowSymbols (a ++ b) = rowSymbols a ++ rowSymbols b := by
  induction a with
  | nil => rfl
  | cons x a ih => simp [rowSymbols, ih]

theorem cellsSymbols_append (a b : List (List Node)) :
    cellsSymbols (a ++ b) = cellsSymbols a ++ cellsSymbols b := by
  induction a with
  | nil => rfl
  | cons x a ih => simp [cellsSymbols, ih]

theorem rowSymbols_flatten (cells : List (List Node)) :
    rowSymbols cells.flatten = cellsSymbols cells := by
  induction cells with
  | nil => rfl
  | cons c cs ih => simp [cellsSymbols, rowSymbols_append, ih]

theorem split_getElem? {α : Type} {l : List α} {i : Nat} {x : α} (h : l[i]? = some x) :
    l = l.take i ++ x :: l.drop (i + 1) := by
  obtain ⟨hi, rfl⟩ := List.getElem?_eq_some_iff.1 h
  simp

theorem take_congr {α : Type} {l l' : List α} {i : Nat} (h : ∀ k, k ≠ i → l'[k]? = l[k]?) :
    l'.take i = l.take i := by
  apply List.ext_getElem?
  intro k
  simp only [List.getElem?_take]
  split
  · exact h k (by omega)
  · rfl

theorem drop_congr {α : Type} {l l' : List α} {i : Nat} (h : ∀ k, k ≠ i → l'[k]? = l[k]?) :
    l'.drop (i + 1) = l.drop (i + 1) := by
  apply List.ext_getElem?
  intro k
  simp only [List.getElem?_drop]
  exact h _ (by omega)

/-- Replacing a row replaces its symbols inside the symbols of the document. -/
theorem ReplacedAt.symbols {root root' old new : Row} {p : RowIndices}
    (h : ReplacedAt root p old new root') :
    ∃ a b, rowSymbols root = a ++ rowSymbols old ++ b ∧
      rowSymbols root' = a ++ rowSymbols new ++ b := by
  induction h with
  | here => exact ⟨[], [], by simp, by simp⟩
  | @under r r' i j p old new v cells cells' w c c' hlen hn hn' ho hcl hc hc' hco h ih =>
    obtain ⟨a, b, h1, h2⟩ := ih
    have e1 := split_getElem? hn
    have e2 := split_getElem? hn'
    rw [take_congr ho, drop_congr ho] at e2
    have e3 := split_getElem? hc
    have e4 := split_getElem? hc'
    rw [take_congr hco, drop_congr hco] at e4
    refine ⟨rowSymbols (r.take i) ++ cellsSymbols (cells.take j) ++ a,
      b ++ cellsSymbols (cells.drop (j + 1)) ++ rowSymbols (r.drop (i + 1)), ?_, ?_⟩
    · conv => lhs; rw [e1]
      rw [rowSymbols_append, rowSymbols, Node.symbols]
      conv => lhs; rw [e3]
      rw [cellsSymbols_append, cellsSymbols, h1]
      simp
    · conv => lhs; rw [e2]
      rw [rowSymbols_append, rowSymbols, Node.symbols]
      conv => lhs; rw [e4]
      rw [cellsSymbols_append, cellsSymbols, h2]
      simp

theorem SymbolRemoved.symbols {root root' : Row} {p : RowIndices} {i : Nat}
    (h : SymbolRemoved root p i root') :
    ∃ a s b, rowSymbols root = a ++ s :: b ∧ rowSymbols root' = a ++ b := by
  obtain ⟨row, s, -, hs, h⟩ := h
  obtain ⟨a, b, h1, h2⟩ := h.symbols
  rw [split_getElem? hs, rowSymbols_append, rowSymbols, Node.symbols] at h1
  rw [rowSymbols_append] at h2
  exact ⟨a ++ rowSymbols (row.take i), s, rowSymbols (row.drop (i + 1)) ++ b, by simp [h1],
    by simp [h2]⟩

theorem Dissolved.symbols {root root' : Row} {p : RowIndices} {i : Nat} {cells : List Row}
    (h : Dissolved root p i cells root') : rowSymbols root' = rowSymbols root := by
  obtain ⟨row, v, w, -, hi, h⟩ := h
  obtain ⟨a, b, h1, h2⟩ := h.symbols
  rw [split_getElem? hi, rowSymbols_append, rowSymbols, Node.symbols] at h1
  rw [rowSymbols_append, rowSymbols_append, rowSymbols_flatten] at h2
  simp [h1, h2]

end Aftermath
