import Verif.Model.Parser
import Verif.Spec.Syntax
import Verif.Proof.Basic

/-! # The invariant of the parser: trees that cover a part of a row -/

namespace Aftermath

mutual
/-- `t` fills its range of `row`: `Shaped` and `SNode.text` in one, and `Q` for every cell and its
tree. -/
def Fills (Q : Row → SNode → Prop) (row : Row) : SNode → Prop
  | .leaf _ lo hi _ symbols =>
    lo < hi ∧ ∃ ss : List Str, (row.drop lo).take (hi - lo) = ss.map Node.symbol ∧
      ss.length = hi - lo ∧ ss.flatten = symbols.flatten
  | .newRows _ lo hi ts w =>
    hi = lo + 1 ∧ ∃ v cells, row[lo]? = some (.container v cells w) ∧ FillsCells Q cells ts
  | .children _ lo hi cs => FillsList Q row lo hi cs
/-- see `Fills` -/
def FillsCells (Q : Row → SNode → Prop) : List Row → List SNode → Prop
  | [], [] => True
  | r :: rs, t :: ts => t.lo = 0 ∧ t.hi = r.length ∧ Q r t ∧ Fills Q r t ∧ FillsCells Q rs ts
  | _, _ => False
/-- see `Fills` -/
def FillsList (Q : Row → SNode → Prop) (row : Row) (lo hi : Nat) : List SNode → Prop
  | [] => lo = hi ∧ hi ≤ row.length
  | c :: cs => c.lo = lo ∧ Fills Q row c ∧ FillsList Q row c.hi hi cs
end

variable {Q : Row → SNode → Prop}

/-- `t` fills exactly `lo..hi`. -/
structure FillsAt (Q : Row → SNode → Prop) (row : Row) (lo hi : Nat) (t : SNode) : Prop where
  fills : Fills Q row t
  lo_eq : t.lo = lo
  hi_eq : t.hi = hi

mutual
theorem Fills.le {row : Row} : ∀ {t : SNode}, Fills Q row t → t.lo ≤ t.hi ∧ t.hi ≤ row.length
  | .leaf _ lo hi _ _, h => by
    simp only [Fills] at h
    obtain ⟨hlt, ss, hs, hl, _⟩ := h
    have := congrArg List.length hs
    simp only [List.length_take, List.length_drop, List.length_map] at this
    simp only [SNode.lo, SNode.hi]
    omega
  | .newRows _ lo hi _ _, h => by
    simp only [Fills] at h
    obtain ⟨rfl, v, cells, hr, _⟩ := h
    have := (List.getElem?_eq_some_iff.1 hr).1
    simp only [SNode.lo, SNode.hi]
    omega
  | .children _ lo hi cs, h => by
    simp only [Fills] at h
    exact FillsList.le h
theorem FillsList.le {row : Row} : ∀ {cs : List SNode} {lo hi : Nat}, FillsList Q row lo hi cs →
    lo ≤ hi ∧ hi ≤ row.length
  | [], lo, hi, h => by simp only [FillsList] at h; omega
  | c :: cs, lo, hi, h => by
    simp only [FillsList] at h
    have h1 := Fills.le h.2.1
    have h2 := FillsList.le h.2.2
    omega
end

theorem FillsAt.le {row : Row} {lo hi : Nat} {t : SNode} (h : FillsAt Q row lo hi t) :
    lo ≤ hi ∧ hi ≤ row.length := by
  have := h.fills.le
  rw [h.lo_eq, h.hi_eq] at this
  exact this

theorem contiguousFrom_ok {row : Row} : ∀ {cs : List SNode} {lo hi : Nat},
    FillsList Q row lo hi cs → SNode.contiguousFrom lo cs = .ok hi
  | [], lo, hi, h => by simp only [FillsList] at h; rw [SNode.contiguousFrom, h.1]
  | c :: cs, lo, hi, h => by
    simp only [FillsList] at h
    rw [SNode.contiguousFrom, h.1]
    simp only [BEq.rfl, massert, if_true, M.ok_bind]
    exact contiguousFrom_ok h.2.2

/-- A node over children that follow each other can be made. -/
theorem new_children {row : Row} {lo hi : Nat} {cs : List SNode} (name : Nat)
    (h : FillsList Q row lo hi cs) :
    ∃ t, SNode.new name lo hi (.children cs) = .ok t ∧ FillsAt Q row lo hi t := by
  refine ⟨.children name lo hi cs, ?_, ⟨by simp only [Fills]; exact h, rfl, rfl⟩⟩
  cases cs with
  | nil => rfl
  | cons c cs =>
    have h' := h
    simp only [FillsList] at h
    simp only [SNode.new, SNode.combinedRange, contiguousFrom_ok h.2.2, M.ok_bind]
    have h1 := h.2.1.le
    have h2 := h.2.2.le
    have : (decide (lo ≤ c.lo) && decide (hi ≤ hi)) = true := by
      simp only [Bool.and_eq_true, decide_eq_true_eq]; omega
    simp only [this, massert, if_true, M.ok_bind, SNode.make]

theorem new_leaf (name lo hi : Nat) (ty : LeafType) (ss : List Str) :
    SNode.new name lo hi (.leaf ty ss) = .ok (.leaf name lo hi ty ss) := rfl

theorem new_newRows (name lo hi : Nat) (ts : List SNode) (w : Nat) :
    SNode.new name lo hi (.newRows ts w) = .ok (.newRows name lo hi ts w) := rfl

theorem FillsAt.list1 {row : Row} {a b : Nat} {t : SNode} (h : FillsAt Q row a b t) :
    FillsList Q row a b [t] := by
  simp only [FillsList]
  exact ⟨h.lo_eq, h.fills, h.hi_eq, h.le.2⟩

theorem FillsAt.cons {row : Row} {a b c : Nat} {t : SNode} {ts : List SNode} (h : FillsAt Q row a b t)
    (ht : FillsList Q row b c ts) : FillsList Q row a c (t :: ts) := by
  simp only [FillsList]
  exact ⟨h.lo_eq, h.fills, by rw [h.hi_eq]; exact ht⟩

/-! ## From the invariant to the specification -/

mutual
theorem Fills.shaped {row : Row} : ∀ {t : SNode}, Fills Q row t → Shaped row t
  | .leaf _ lo hi _ _, h => by
    have h2 := h.le
    simp only [Fills] at h
    simp only [Shaped]
    exact ⟨h.1, h2.2⟩
  | .newRows _ lo hi ts _, h => by
    simp only [Fills] at h
    obtain ⟨h1, v, cells, h2, h3⟩ := h
    simp only [Shaped]
    exact ⟨h1, v, cells, h2, FillsCells.shaped h3⟩
  | .children _ lo hi cs, h => by
    simp only [Fills] at h
    simp only [Shaped]
    exact FillsList.shaped h
theorem FillsCells.shaped : ∀ {cells : List Row} {ts : List SNode}, FillsCells Q cells ts →
    ShapedCells cells ts
  | [], [], _ => by simp only [ShapedCells]
  | [], _ :: _, h => by simp only [FillsCells] at h
  | _ :: _, [], h => by simp only [FillsCells] at h
  | r :: rs, t :: ts, h => by
    simp only [FillsCells] at h
    simp only [ShapedCells]
    exact ⟨h.1, h.2.1, Fills.shaped h.2.2.2.1, FillsCells.shaped h.2.2.2.2⟩
theorem FillsList.shaped {row : Row} : ∀ {cs : List SNode} {lo hi : Nat},
    FillsList Q row lo hi cs → ShapedChildren row lo hi cs
  | [], lo, hi, h => by simp only [FillsList] at h; simp only [ShapedChildren]; exact h
  | c :: cs, lo, hi, h => by
    simp only [FillsList] at h
    simp only [ShapedChildren]
    exact ⟨h.1, Fills.shaped h.2.1, FillsList.shaped h.2.2⟩
end

theorem rowText_append (a b : Row) : rowText (a ++ b) = rowText a ++ rowText b := by
  induction a with
  | nil => rfl
  | cons n ns ih => simp only [List.cons_append, rowText, ih, List.append_assoc]

theorem rowText_symbols (ss : List Str) :
    rowText (ss.map Node.symbol) = ss.flatten.map Piece.char := by
  induction ss with
  | nil => rfl
  | cons s ss ih =>
    simp only [List.map_cons, rowText, Node.text, ih, List.flatten_cons, List.map_append]

theorem slice_append (row : Row) {a b c : Nat} (h1 : a ≤ b) (h2 : b ≤ c) :
    (row.drop a).take (c - a) = (row.drop a).take (b - a) ++ (row.drop b).take (c - b) := by
  have hc : c - a = (b - a) + (c - b) := by omega
  rw [hc, List.take_add, List.drop_drop]
  congr 3
  omega

mutual
theorem Fills.text {row : Row} : ∀ {t : SNode}, Fills Q row t →
    t.text = rowText ((row.drop t.lo).take (t.hi - t.lo))
  | .leaf _ lo hi _ symbols, h => by
    simp only [Fills] at h
    obtain ⟨_, ss, hs, _, hf⟩ := h
    simp only [SNode.text, SNode.lo, SNode.hi]
    rw [hs, rowText_symbols, hf]
  | .newRows _ lo hi ts w, h => by
    simp only [Fills] at h
    obtain ⟨rfl, v, cells, hr, hc⟩ := h
    simp only [SNode.text, SNode.lo, SNode.hi]
    have hd : row.drop lo = .container v cells w :: row.drop (lo + 1) := by
      obtain ⟨hlt, he⟩ := List.getElem?_eq_some_iff.1 hr
      rw [List.drop_eq_getElem_cons hlt, he]
    rw [hd, show lo + 1 - lo = 1 by omega]
    simp only [List.take_succ_cons, List.take_zero, rowText, Node.text, List.append_nil]
    rw [FillsCells.text hc]
  | .children _ lo hi cs, h => by
    simp only [Fills] at h
    simp only [SNode.text, SNode.lo, SNode.hi]
    exact FillsList.text h
theorem FillsCells.text : ∀ {cells : List Row} {ts : List SNode}, FillsCells Q cells ts →
    treeCellsText ts = cellsText cells
  | [], [], _ => rfl
  | [], _ :: _, h => by simp only [FillsCells] at h
  | _ :: _, [], h => by simp only [FillsCells] at h
  | r :: rs, t :: ts, h => by
    simp only [FillsCells] at h
    simp only [treeCellsText, cellsText]
    rw [Fills.text h.2.2.2.1, FillsCells.text h.2.2.2.2, h.1, h.2.1]
    simp only [List.drop_zero, Nat.sub_zero, List.take_length]
theorem FillsList.text {row : Row} : ∀ {cs : List SNode} {lo hi : Nat},
    FillsList Q row lo hi cs → treesText cs = rowText ((row.drop lo).take (hi - lo))
  | [], lo, hi, h => by
    simp only [FillsList] at h
    rw [h.1]
    simp only [treesText, Nat.sub_self, List.take_zero, rowText]
  | c :: cs, lo, hi, h => by
    simp only [FillsList] at h
    have h1 := h.2.1.le
    have h2 := h.2.2.le
    rw [h.1] at h1
    simp only [treesText]
    rw [Fills.text h.2.1, FillsList.text h.2.2, h.1, slice_append row h1.1 h2.1, rowText_append]
end

end Aftermath
