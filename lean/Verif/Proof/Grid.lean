import Verif.Proof.Edit
import Verif.Spec.Grid
import Mathlib.Tactic.Ring
import Mathlib.Tactic.Linarith

/-! # Lemmas about grid edits -/

namespace Aftermath

theorem GridSize.size {α : Type} {g : GridVec α} {w h : Nat} (hg : GridSize g w h) :
    g.size = .ok (w, h) := by
  obtain ⟨hw, hpos, hl⟩ := hg
  rw [GridVec.size_pos (by omega), hl, hw, Nat.mul_div_cancel _ hpos]

theorem fromOneDimensional_ok {α : Type} {l : List α} {w h : Nat} (hw : 0 < w)
    (hl : l.length = h * w) : GridVec.fromOneDimensional l w = .ok ⟨l, w⟩ := by
  have : w ≠ 0 := by omega
  simp [GridVec.fromOneDimensional, this, hl]

theorem idx_lt {x y w k : Nat} (hx : x < w) (hy : y < k) : y * w + x < k * w := by
  have : (y + 1) * w ≤ k * w := Nat.mul_le_mul_right _ hy
  have h2 : (y + 1) * w = y * w + w := by ring
  omega

theorem idx_ge {x y w k : Nat} (hy : k ≤ y) : k * w ≤ y * w + x := by
  have : k * w ≤ y * w := Nat.mul_le_mul_right _ hy
  omega

/-- Row insertion on the flat list. -/
theorem insertRows_cell {α : Type} {old ins : List α} {w h hv k x y : Nat}
    (ho : old.length = h * w) (hi : ins.length = hv * w) (hk : k ≤ h) (hx : x < w) :
    (old.take (w * k) ++ ins ++ old.drop (w * k))[y * w + x]? =
      if y < k then old[y * w + x]?
      else if y < k + hv then ins[(y - k) * w + x]?
      else old[(y - hv) * w + x]? := by
  have hkw : k * w ≤ h * w := Nat.mul_le_mul_right _ hk
  have e : w * k = k * w := Nat.mul_comm _ _
  have hlen : (old.take (w * k)).length = k * w := by simp [ho, e]; omega
  rw [List.append_assoc, List.getElem?_append, hlen]
  by_cases h1 : y < k
  · have := idx_lt hx h1
    simp only [this, h1, if_true]
    rw [List.getElem?_take, if_pos (by omega)]
  · have h1' : k ≤ y := by omega
    have := idx_ge (x := x) (w := w) h1'
    have h2 : ¬ (y * w + x < k * w) := by omega
    have e2 : y * w + x - k * w = (y - k) * w + x := by
      rw [Nat.sub_mul]; have : k * w ≤ y * w := Nat.mul_le_mul_right _ h1'; omega
    simp only [h2, h1, if_false]
    rw [e2, List.getElem?_append, hi]
    by_cases h3 : y < k + hv
    · have := idx_lt hx (show y - k < hv by omega)
      simp only [this, h3, if_true]
    · have h4 : hv ≤ y - k := by omega
      have := idx_ge (x := x) (w := w) h4
      have h5 : ¬ ((y - k) * w + x < hv * w) := by omega
      simp only [h5, h3, if_false]
      rw [List.getElem?_drop]
      congr 1
      have e3 : (y - k) * w + x - hv * w = (y - k - hv) * w + x := by
        rw [Nat.sub_mul (y - k)]
        have : hv * w ≤ (y - k) * w := Nat.mul_le_mul_right _ h4
        omega
      rw [e3, e]
      have e4 : y - hv = k + (y - k - hv) := by omega
      rw [e4, Nat.add_mul]
      omega

/-- Column insertion: the loop succeeds and puts every cell in place. -/
theorem insertColumnsLoop_spec {cfg : Cfg} {w wi k : Nat} (hk : k ≤ w) (n : Nat)
    (old ins : List Row) (ho : old.length = n * w) (hi : ins.length = n * wi) :
    ∃ res, insertColumnsLoop cfg k w wi n old ins = .ok res ∧ res.length = n * (w + wi) ∧
      ∀ x y, x < w + wi → y < n → res[y * (w + wi) + x]? =
        if x < k then old[y * w + x]?
        else if x < k + wi then ins[y * wi + (x - k)]?
        else old[y * w + (x - wi)]? := by
  induction n generalizing old ins with
  | zero => exact ⟨[], rfl, by simp, by intro x y _ hy; omega⟩
  | succ n ih =>
    have ho' : old.length = n * w + w := by rw [ho]; ring
    have hi' : ins.length = n * wi + wi := by rw [hi]; ring
    obtain ⟨res, hres, hlen, hcell⟩ := ih ((old.drop k).drop (w - k)) (ins.drop wi)
      (by simp; omega) (by simp; omega)
    refine ⟨old.take k ++ ins.take wi ++ (old.drop k).take (w - k) ++ res, ?_, ?_, ?_⟩
    · simp only [insertColumnsLoop, usub_of_le hk, M.ok_bind, hres]
      try simp
    · have e : (n + 1) * (w + wi) = n * (w + wi) + (w + wi) := by ring
      simp [hlen, e]; omega
    · intro x y hx hy
      have l1 : (old.take k).length = k := by simp; omega
      have l2 : (ins.take wi).length = wi := by simp; omega
      have l3 : ((old.drop k).take (w - k)).length = w - k := by simp; omega
      have l4 : (old.take k ++ ins.take wi ++ (old.drop k).take (w - k)).length = w + wi := by
        simp only [List.length_append, l1, l2, l3]; omega
      rw [List.getElem?_append, l4]
      cases y with
      | zero =>
        simp only [Nat.zero_mul, Nat.zero_add, hx, if_true]
        rw [List.getElem?_append, List.getElem?_append]
        simp only [List.length_append, l1, l2]
        by_cases h1 : x < k
        · have h2 : x < k + wi := by omega
          simp only [h1, h2, if_true]
          rw [List.getElem?_take, if_pos h1]
        · by_cases h2 : x < k + wi
          · simp only [h1, h2, if_true, if_false]
            rw [List.getElem?_take, if_pos (by omega)]
          · simp only [h1, h2, if_false]
            rw [List.getElem?_take, if_pos (by omega), List.getElem?_drop]
            congr 1; omega
      | succ y =>
        have e : (y + 1) * (w + wi) + x = (y * (w + wi) + x) + (w + wi) := by ring
        have e1 : ¬ ((y + 1) * (w + wi) + x < w + wi) := by omega
        have e2 : (y + 1) * (w + wi) + x - (w + wi) = y * (w + wi) + x := by omega
        simp only [e1, if_false]
        rw [e2, hcell x y hx (by omega)]
        have e3 : (y + 1) * w = y * w + w := by ring
        have e4 : (y + 1) * wi = y * wi + wi := by ring
        by_cases h1 : x < k
        · simp only [h1, if_true, List.drop_drop, List.getElem?_drop]
          congr 1; omega
        · by_cases h2 : x < k + wi
          · simp only [h1, h2, if_true, if_false, List.getElem?_drop]
            congr 1; omega
          · simp only [h1, h2, if_false, List.drop_drop, List.getElem?_drop]
            congr 1; omega

/-- Column deletion does not delete anything. -/
theorem deleteColumnsLoop_id {cfg : Cfg} {w k : Nat} (hk : k ≤ w) (n : Nat)
    (old : List Row) (ho : old.length = n * w) :
    deleteColumnsLoop cfg k w n old = .ok old := by
  induction n generalizing old with
  | zero =>
    have : old = [] := by simpa using ho
    subst this; rfl
  | succ n ih =>
    have ho' : old.length = n * w + w := by rw [ho]; ring
    have hres := ih ((old.drop k).drop (w - k)) (by simp; omega)
    simp only [deleteColumnsLoop, usub_of_le hk, M.ok_bind, hres]
    rw [List.append_assoc, List.take_append_drop, List.take_append_drop]

theorem applyToRow_table {cfg : Cfg} {e : GridEdit} {r : Row} {cells : List Row} {w : Nat}
    (h : r[e.elementIndices.index]? = some (.container .table cells w)) :
    e.applyToRow cfg r = (e.applyToGrid cfg ⟨cells, w⟩ >>= fun g =>
      .ok (r.set e.elementIndices.index (.container .table g.values g.width))) := by
  simp [GridEdit.applyToRow, h, Node.hasResizableGrid]

end Aftermath
