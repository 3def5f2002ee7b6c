import Verif.Model.Editor
import Verif.Spec.Path
import Mathlib.Tactic.Common

/-! # Basic lemmas: monad, grids, paths -/

namespace Aftermath

@[simp] theorem M.ok_bind {α β : Type} (a : α) (f : α → M β) :
    ((Except.ok a : M α) >>= f) = f a := rfl
@[simp] theorem M.error_bind {α β : Type} (e : Panic) (f : α → M β) :
    ((Except.error e : M α) >>= f) = Except.error e := rfl

theorem M.bind_eq_ok {α β : Type} {x : M α} {f : α → M β} {b : β} :
    (x >>= f) = Except.ok b ↔ ∃ a, x = Except.ok a ∧ f a = Except.ok b := by
  cases x with
  | error e => simp
  | ok a => simp

@[simp] theorem massert_true : massert true = Except.ok () := rfl
@[simp] theorem massert_false : massert false = Except.error .assertion := rfl
theorem massert_eq_ok {b : Bool} {u : Unit} : massert b = Except.ok u ↔ b = true := by
  cases b <;> simp [massert]
@[simp] theorem munwrap_some {α : Type} (a : α) : munwrap (some a) = Except.ok a := rfl
@[simp] theorem munwrap_none {α : Type} :
    (munwrap (none : Option α)) = Except.error .unwrapNone := rfl
@[simp] theorem mexpect_some {α : Type} (a : α) : mexpect (some a) = Except.ok a := rfl
@[simp] theorem mexpect_none {α : Type} :
    (mexpect (none : Option α)) = Except.error .expect := rfl
theorem munwrap_eq_ok {α : Type} {o : Option α} {a : α} :
    munwrap o = Except.ok a ↔ o = some a := by
  cases o <;> simp [munwrap]
theorem mexpect_eq_ok {α : Type} {o : Option α} {a : α} :
    mexpect o = Except.ok a ↔ o = some a := by
  cases o <;> simp [mexpect]

theorem usub_of_le {cfg : Cfg} {x y : Nat} (h : y ≤ x) : usub cfg x y = Except.ok (x - y) := by
  simp [usub, h]

theorem usub_lt_dev {cfg : Cfg} {x y : Nat} (hc : cfg.checks = true) (h : x < y) :
    usub cfg x y = Except.error .overflow := by
  have : ¬ y ≤ x := by omega
  simp [usub, this, hc]

theorem usub_lt_release {cfg : Cfg} {x y : Nat} (hc : cfg.checks = false) (h : x < y) :
    usub cfg x y = Except.ok (x + 2 ^ cfg.bits - y) := by
  have : ¬ y ≤ x := by omega
  simp [usub, this, hc]

/-! ## Grids -/

theorem GridVec.size_pos {α : Type} {g : GridVec α} (h : 0 < g.width) :
    g.size = Except.ok (g.width, g.values.length / g.width) := by
  have : g.width ≠ 0 := by omega
  simp [GridVec.size, this]

theorem toIndexChecked_fromIndex {w n j : Nat} (hw : 0 < w) (hn : n % w = 0) :
    (Index2D.fromIndex j (w, n / w)).toIndexChecked (w, n / w)
      = if j < n then some j else none := by
  have hx : j % w < w := Nat.mod_lt _ hw
  have hdiv : n / w * w = n := Nat.div_mul_cancel (Nat.dvd_of_mod_eq_zero hn)
  have key : j / w < n / w ↔ j < n := by
    rw [Nat.div_lt_iff_lt_mul hw, hdiv]
  unfold Index2D.toIndexChecked Index2D.withGrid Index2D.fromIndex Index2D.toIndex
  by_cases hj : j < n
  · have h1 : ¬ (j / w ≥ n / w) := by have := key.2 hj; omega
    simp only [hj, if_true]
    rw [if_neg (by simp only [ne_eq, not_true_eq_false, false_or, not_or]; exact ⟨by omega, h1⟩)]
    simp [Nat.div_add_mod' j w]
  · have h1 : j / w ≥ n / w := by
      by_contra h
      exact hj (key.1 (by omega))
    simp only [hj, if_false]
    rw [if_pos (by simp only [ne_eq, not_true_eq_false, false_or]; exact Or.inr h1)]
    rfl

theorem getLinear_wf {α : Type} {cells : List α} {w : Nat} (hw : 0 < w)
    (hn : cells.length % w = 0) (j : Nat) :
    GridVec.getLinear ⟨cells, w⟩ j = Except.ok cells[j]? := by
  have hs : GridVec.size ⟨cells, w⟩ = Except.ok (w, cells.length / w) := GridVec.size_pos hw
  unfold GridVec.getLinear GridVec.get
  simp only [hs, M.ok_bind, toIndexChecked_fromIndex hw hn]
  by_cases hj : j < cells.length
  · simp [hj]
  · simp only [hj, if_false]
    rw [List.getElem?_eq_none (by omega)]

theorem shapeOk_pos {v : Variant} {n w : Nat} (h : shapeOk v n w = true) :
    0 < w ∧ n % w = 0 ∧ 0 < n := by
  cases v <;> simp [shapeOk] at h <;> first | (obtain ⟨rfl, rfl⟩ := h; decide) | omega

/-! ## Well-formedness is inherited -/

theorem rowWf_iff {r : Row} : rowWf r = true ↔ ∀ n ∈ r, n.wf = true := by
  induction r with
  | nil => simp [rowWf]
  | cons a r ih => simp [rowWf, ih]

theorem cellsWf_iff {cs : List Row} : cellsWf cs = true ↔ ∀ r ∈ cs, rowWf r = true := by
  induction cs with
  | nil => simp [cellsWf]
  | cons a r ih => simp [cellsWf, ih]

theorem rowFits_iff {b : Nat} {r : Row} : rowFits b r = true ↔ ∀ n ∈ r, n.fits b = true := by
  induction r with
  | nil => simp [rowFits]
  | cons a r ih => simp [rowFits, ih]

theorem cellsFit_iff {b : Nat} {cs : List Row} :
    cellsFit b cs = true ↔ ∀ r ∈ cs, rowFits b r = true := by
  induction cs with
  | nil => simp [cellsFit]
  | cons a r ih => simp [cellsFit, ih]

theorem rowWf_append {a b : Row} : rowWf (a ++ b) = (rowWf a && rowWf b) := by
  induction a with
  | nil => simp [rowWf]
  | cons x a ih => simp [rowWf, ih, Bool.and_assoc]

theorem rowWf_take {r : Row} (h : rowWf r = true) (k : Nat) : rowWf (r.take k) = true :=
  rowWf_iff.2 fun n hn => rowWf_iff.1 h n (List.mem_of_mem_take hn)

theorem rowWf_drop {r : Row} (h : rowWf r = true) (k : Nat) : rowWf (r.drop k) = true :=
  rowWf_iff.2 fun n hn => rowWf_iff.1 h n (List.mem_of_mem_drop hn)

theorem wf_container {v : Variant} {cells : List Row} {w : Nat} :
    (Node.container v cells w).wf = true ↔ shapeOk v cells.length w = true ∧
      ∀ c ∈ cells, rowWf c = true := by
  simp [Node.wf, cellsWf_iff]

theorem fits_container {b : Nat} {v : Variant} {cells : List Row} {w : Nat} :
    (Node.container v cells w).fits b = true ↔ cells.length < 2 ^ b ∧
      ∀ c ∈ cells, rowFits b c = true := by
  simp [Node.fits, cellsFit_iff]

/-! ## Paths -/

@[simp] theorem rowAt_nil (r : Row) : rowAt r [] = some r := rfl

theorem rowAt_cons {r : Row} {i j : Nat} {p : RowIndices} {x : Row} :
    rowAt r ((i, j) :: p) = some x ↔
      ∃ v cells w c, r[i]? = some (.container v cells w) ∧ cells[j]? = some c ∧
        rowAt c p = some x := by
  constructor
  · intro h
    rw [rowAt] at h
    split at h
    · rename_i v cells w hi
      split at h
      · rename_i c hc
        exact ⟨v, cells, w, c, hi, hc, h⟩
      · cases h
    · cases h
  · rintro ⟨v, cells, w, c, hi, hc, h⟩
    rw [rowAt]
    simp [hi, hc, h]

theorem rowAt_append {r : Row} {p q : RowIndices} :
    rowAt r (p ++ q) = (rowAt r p).bind (fun x => rowAt x q) := by
  induction p generalizing r with
  | nil => simp
  | cons ix p ih =>
    obtain ⟨i, j⟩ := ix
    simp only [List.cons_append]
    rw [rowAt, rowAt]
    split
    · split
      · exact ih
      · rfl
    · rfl

theorem rowAt_wf {r x : Row} {p : RowIndices} (hr : rowWf r = true) (h : rowAt r p = some x) :
    rowWf x = true := by
  induction p generalizing r with
  | nil => simp at h; subst h; exact hr
  | cons ix p ih =>
    obtain ⟨i, j⟩ := ix
    obtain ⟨v, cells, w, c, hi, hc, h⟩ := rowAt_cons.1 h
    have hn := rowWf_iff.1 hr _ (List.mem_of_getElem? hi)
    exact ih ((wf_container.1 hn).2 c (List.mem_of_getElem? hc)) h

theorem rowAt_fits {b : Nat} {r x : Row} {p : RowIndices} (hr : rowFits b r = true)
    (h : rowAt r p = some x) : rowFits b x = true := by
  induction p generalizing r with
  | nil => simp at h; subst h; exact hr
  | cons ix p ih =>
    obtain ⟨i, j⟩ := ix
    obtain ⟨v, cells, w, c, hi, hc, h⟩ := rowAt_cons.1 h
    have hn := rowFits_iff.1 hr _ (List.mem_of_getElem? hi)
    exact ih ((fits_container.1 hn).2 c (List.mem_of_getElem? hc)) h

end Aftermath
