import Verif.Proof.Basic
import Verif.Spec.Edit

/-! # Lemmas about applying edits -/

namespace Aftermath

/-- What the lookup of a cell does when it succeeds: no well-formedness needed. -/
theorem toIndexChecked_some {size : Nat × Nat} {j k : Nat}
    (h : (Index2D.fromIndex j size).toIndexChecked size = some k) : k = j := by
  unfold Index2D.toIndexChecked Index2D.withGrid Index2D.fromIndex Index2D.toIndex at h
  split at h
  · cases h
  · simp only [Option.map_some, Option.some.injEq] at h
    rw [← h, Nat.div_add_mod' j size.1]

theorem getLinear_some {α : Type} {g : GridVec α} {j : Nat} {c : α}
    (h : g.getLinear j = .ok (some c)) : g.values[j]? = some c := by
  unfold GridVec.getLinear GridVec.get at h
  obtain ⟨s, hs, h⟩ := M.bind_eq_ok.1 h
  simp only [hs, M.ok_bind] at h
  split at h
  · rename_i k hk
    rw [toIndexChecked_some hk] at h
    simpa using h
  · cases h

theorem editRowAt_cons {f : Row → M Row} {r root' : Row} {i j : Nat} {p : RowIndices} :
    editRowAt f r ((i, j) :: p) = .ok root' ↔
      ∃ v cells w s c c', r[i]? = some (.container v cells w) ∧
        GridVec.size ⟨cells, w⟩ = .ok s ∧
        (Index2D.fromIndex j s).toIndexChecked s = some j ∧
        cells[j]? = some c ∧ editRowAt f c p = .ok c' ∧
        root' = r.set i (.container v (cells.set j c') w) := by
  constructor
  · intro h
    rw [editRowAt] at h
    split at h
    · cases h
    · cases h
    · rename_i v cells w hi
      obtain ⟨s, hs, h2⟩ := M.bind_eq_ok.1 h
      clear h
      split at h2
      · cases h2
      · rename_i k hk
        have hkj := toIndexChecked_some hk
        subst hkj
        split at h2
        · cases h2
        · rename_i c hc
          obtain ⟨c', hc', h3⟩ := M.bind_eq_ok.1 h2
          refine ⟨v, cells, w, s, c, c', hi, hs, hk, hc, hc', ?_⟩
          simpa using h3.symm
  · rintro ⟨v, cells, w, s, c, c', hi, hs, hk, hc, hc', rfl⟩
    rw [editRowAt]
    simp [hi, hs, hk, hc, hc']

theorem size_set {α : Type} (cells : List α) (w j : Nat) (c : α) :
    GridVec.size ⟨cells.set j c, w⟩ = GridVec.size ⟨cells, w⟩ := by
  simp [GridVec.size]

theorem replacedAt_set {r : Row} {i j : Nat} {p : RowIndices} {v : Variant} {cells : List Row}
    {w : Nat} {c c' old new : Row}
    (hi : r[i]? = some (.container v cells w)) (hc : cells[j]? = some c)
    (h : ReplacedAt c p old new c') :
    ReplacedAt r ((i, j) :: p) old new (r.set i (.container v (cells.set j c') w)) := by
  have hil : i < r.length := (List.getElem?_eq_some_iff.1 hi).1
  have hjl : j < cells.length := (List.getElem?_eq_some_iff.1 hc).1
  refine ReplacedAt.under (by simp) hi (cells' := cells.set j c') ?_ ?_ (by simp) hc ?_ ?_ h
  · simp [hil]
  · intro k hk
    rw [List.getElem?_set_ne (by omega)]
  · simp [hjl]
  · intro k hk
    rw [List.getElem?_set_ne (by omega)]

/-- If the mutable walk succeeds, the result is the tree with the row replaced. -/
theorem editRowAt_replaced {f : Row → M Row} {root root' : Row} {p : RowIndices}
    (h : editRowAt f root p = .ok root') :
    ∃ old new, rowAt root p = some old ∧ f old = .ok new ∧ ReplacedAt root p old new root' := by
  induction p generalizing root root' with
  | nil => exact ⟨root, root', rfl, h, .here _ _⟩
  | cons ix p ih =>
    obtain ⟨i, j⟩ := ix
    obtain ⟨v, cells, w, s, c, c', hi, hs, hk, hc, hc', rfl⟩ := editRowAt_cons.1 h
    obtain ⟨old, new, h1, h2, h3⟩ := ih hc'
    exact ⟨old, new, rowAt_cons.2 ⟨v, cells, w, c, hi, hc, h1⟩, h2, replacedAt_set hi hc h3⟩

/-- On a well-formed tree the mutable walk along an existing path succeeds. -/
theorem editRowAt_ok {f : Row → M Row} {root old new : Row} {p : RowIndices}
    (hwf : rowWf root = true) (hp : rowAt root p = some old) (hf : f old = .ok new) :
    ∃ root', editRowAt f root p = .ok root' := by
  induction p generalizing root with
  | nil => simp at hp; subst hp; exact ⟨new, hf⟩
  | cons ix p ih =>
    obtain ⟨i, j⟩ := ix
    obtain ⟨v, cells, w, c, hi, hc, hp⟩ := rowAt_cons.1 hp
    have hn := wf_container.1 (rowWf_iff.1 hwf _ (List.mem_of_getElem? hi))
    obtain ⟨c', hc'⟩ := ih (hn.2 c (List.mem_of_getElem? hc)) hp
    obtain ⟨hw, hmod, -⟩ := shapeOk_pos hn.1
    have hjl : j < cells.length := (List.getElem?_eq_some_iff.1 hc).1
    refine ⟨_, editRowAt_cons.2 ⟨v, cells, w, _, c, c', hi, GridVec.size_pos hw, ?_, hc, hc', rfl⟩⟩
    have := toIndexChecked_fromIndex (j := j) hw hmod
    simpa [hjl] using this

/-- Without the path there is a panic. -/
theorem editRowAt_error {f : Row → M Row} {root : Row} {p : RowIndices}
    (hp : rowAt root p = none) : ∃ e, editRowAt f root p = .error e := by
  cases h : editRowAt f root p with
  | error e => exact ⟨e, rfl⟩
  | ok x =>
    obtain ⟨old, _, h1, _⟩ := editRowAt_replaced h
    rw [h1] at hp; cases hp

/-- Undoing a replacement: the same walk in the changed tree. -/
theorem editRowAt_undo {f g : Row → M Row} {root root' : Row} {p : RowIndices}
    (h : editRowAt f root p = .ok root')
    (hg : ∀ old new, rowAt root p = some old → f old = .ok new → g new = .ok old) :
    editRowAt g root' p = .ok root := by
  induction p generalizing root root' with
  | nil => exact hg root root' rfl h
  | cons ix p ih =>
    obtain ⟨i, j⟩ := ix
    obtain ⟨v, cells, w, s, c, c', hi, hs, hk, hc, hc', rfl⟩ := editRowAt_cons.1 h
    have hil : i < root.length := (List.getElem?_eq_some_iff.1 hi).1
    have hjl : j < cells.length := (List.getElem?_eq_some_iff.1 hc).1
    have ih' := ih hc' (fun old new h1 h2 => hg old new
      (rowAt_cons.2 ⟨v, cells, w, c, hi, hc, h1⟩) h2)
    refine editRowAt_cons.2 ⟨v, cells.set j c', w, s, c', c, by simp [hil], ?_, hk,
      by simp [hjl], ih', ?_⟩
    · rw [size_set]; exact hs
    · obtain ⟨_, hi2⟩ := List.getElem?_eq_some_iff.1 hi
      obtain ⟨_, hc2⟩ := List.getElem?_eq_some_iff.1 hc
      simp only [List.set_set]
      rw [← hc2, List.set_getElem_self, ← hi2, List.set_getElem_self]

theorem RowEdit.applyToRow_inverse {e : RowEdit} {old new : Row}
    (ht : e.editType = .delete → (old.drop e.position.offset).take e.values.length = e.values)
    (h : e.applyToRow old = .ok new) : e.inverse.applyToRow new = .ok old := by
  obtain ⟨t, ⟨p, o⟩, vs⟩ := e
  cases t with
  | insert =>
    simp only [RowEdit.applyToRow] at h
    split at h
    · rename_i ho
      simp only [Except.ok.injEq] at h
      subst h
      have hmin : min o old.length = o := by omega
      show RowEdit.applyToRow ⟨.delete, ⟨p, o⟩, vs⟩ _ = _
      simp only [RowEdit.applyToRow]
      rw [if_pos (by simp; omega)]
      congr 1
      rw [List.append_assoc, List.take_append, List.drop_append]
      have h1 : List.drop (o + vs.length) (List.take o old) = [] :=
        List.drop_eq_nil_of_le (by simp; omega)
      simp [hmin, h1, List.take_take]
    · cases h
  | delete =>
    simp only [RowEdit.applyToRow] at h
    have ht := ht rfl
    simp only at ht
    split at h
    · rename_i ho
      simp only [Except.ok.injEq] at h
      subst h
      have hmin : min o old.length = o := by omega
      show RowEdit.applyToRow ⟨.insert, ⟨p, o⟩, vs⟩ _ = _
      simp only [RowEdit.applyToRow]
      rw [if_pos (by simp; omega)]
      congr 1
      rw [List.take_append, List.drop_append]
      have h1 : List.drop o (List.take o old) = [] := by simp
      simp only [List.length_take, hmin, Nat.sub_self, List.take_zero, List.append_nil,
        List.take_take, Nat.min_self, h1, List.nil_append, List.drop_zero]
      rw [← List.drop_drop]
      conv_lhs => arg 1; arg 2; rw [← ht]
      rw [List.append_assoc, List.take_append_drop, List.take_append_drop]
    · cases h

theorem applyEdit_inverse {cfg : Cfg} {root root' : Row} {e : BasicEdit}
    (ht : TruthfulEdit root e) (h : applyEdit cfg root e = .ok root') :
    applyEdit cfg root' e.inverse = .ok root := by
  cases e with
  | grid e => exact ht.elim
  | row e =>
    refine editRowAt_undo (p := e.position.rowIndices) h fun old new h1 h2 => ?_
    refine RowEdit.applyToRow_inverse (fun hd => ?_) h2
    obtain ⟨r, hr, hr2⟩ := ht hd
    rw [h1] at hr
    cases hr
    exact hr2

theorem applyEdits_append {cfg : Cfg} {root : Row} {a b : List BasicEdit} :
    applyEdits cfg root (a ++ b) = (applyEdits cfg root a >>= fun r => applyEdits cfg r b) := by
  induction a generalizing root with
  | nil => rfl
  | cons e a ih =>
    simp only [List.cons_append, applyEdits]
    cases applyEdit cfg root e with
    | error e => rfl
    | ok r => simp [ih]

theorem applyEdits_inverse {cfg : Cfg} {root root' : Row} {es : List BasicEdit}
    (ht : Truthful cfg root es) (h : applyEdits cfg root es = .ok root') :
    applyEdits cfg root' (es.reverse.map BasicEdit.inverse) = .ok root := by
  induction es generalizing root with
  | nil => simp only [applyEdits, Except.ok.injEq] at h; subst h; rfl
  | cons e es ih =>
    simp only [applyEdits] at h
    obtain ⟨r, hr, h⟩ := M.bind_eq_ok.1 h
    have h1 := ih (ht.2 r hr) h
    simp only [List.reverse_cons, List.map_append, List.map_cons, List.map_nil]
    rw [applyEdits_append, h1]
    simp [applyEdits, applyEdit_inverse ht.1 hr]

/-! ## Consequences of `ReplacedAt` -/

theorem ReplacedAt.rowAt_old {root root' old new : Row} {p : RowIndices}
    (h : ReplacedAt root p old new root') : rowAt root p = some old := by
  induction h with
  | here => rfl
  | under hlen hn hn' ho hcl hc hc' hco h ih => exact rowAt_cons.2 ⟨_, _, _, _, hn, hc, ih⟩

theorem ReplacedAt.rowAt_new {root root' old new : Row} {p : RowIndices}
    (h : ReplacedAt root p old new root') : rowAt root' p = some new := by
  induction h with
  | here => rfl
  | under hlen hn hn' ho hcl hc hc' hco h ih => exact rowAt_cons.2 ⟨_, _, _, _, hn', hc', ih⟩

/-- Rows that neither enclose nor lie below the replaced row are unchanged. -/
theorem ReplacedAt.rowAt_other {root root' old new : Row} {p q : RowIndices}
    (h : ReplacedAt root p old new root') (h1 : ¬ p <+: q) (h2 : ¬ q <+: p) :
    rowAt root' q = rowAt root q := by
  induction h generalizing q with
  | here => exact absurd (List.nil_prefix) h1
  | @under r r' i j p old new v cells cells' w c c' hlen hn hn' ho hcl hc hc' hco h ih =>
    cases q with
    | nil => exact absurd (List.nil_prefix) h2
    | cons ix q =>
      obtain ⟨a, b⟩ := ix
      rw [rowAt, rowAt]
      by_cases ha : a = i
      · subst ha
        simp only [hn, hn']
        by_cases hb : b = j
        · subst hb
          simp only [hc, hc']
          apply ih
          · intro hp; exact h1 (by simpa using hp)
          · intro hp; exact h2 (by simpa using hp)
        · rw [hco b hb]
      · rw [ho a ha]

/-- A row that strictly encloses the replaced row keeps its length; its node on the way keeps
variant, width and number of cells. -/
theorem ReplacedAt.rowAt_enclosing {root root' old new : Row} {q p : RowIndices} {i j : Nat}
    (h : ReplacedAt root (q ++ (i, j) :: p) old new root') :
    ∃ r r' v cells cells' w, rowAt root q = some r ∧ rowAt root' q = some r' ∧
      r'.length = r.length ∧ (∀ k, k ≠ i → r'[k]? = r[k]?) ∧
      r[i]? = some (.container v cells w) ∧ r'[i]? = some (.container v cells' w) ∧
      cells'.length = cells.length ∧ (∀ k, k ≠ j → cells'[k]? = cells[k]?) := by
  generalize hp : q ++ (i, j) :: p = pp at h
  induction h generalizing q with
  | here => simp at hp
  | @under r r' i' j' p' old new v cells cells' w c c' hlen hn hn' ho hcl hc hc' hco h ih =>
    cases q with
    | nil =>
      simp only [List.nil_append, List.cons.injEq, Prod.mk.injEq] at hp
      obtain ⟨⟨rfl, rfl⟩, rfl⟩ := hp
      exact ⟨r, r', v, cells, cells', w, rfl, rfl, hlen, ho, hn, hn', hcl, hco⟩
    | cons ix q =>
      simp only [List.cons_append, List.cons.injEq] at hp
      obtain ⟨rfl, hp⟩ := hp
      obtain ⟨r1, r1', v1, c1, c1', w1, e1, e2, e3⟩ := ih hp
      exact ⟨r1, r1', v1, c1, c1', w1, rowAt_cons.2 ⟨_, _, _, _, hn, hc, e1⟩,
        rowAt_cons.2 ⟨_, _, _, _, hn', hc', e2⟩, e3⟩

/-- The replaced tree is determined by the rest. -/
theorem ReplacedAt.unique {root root' root'' old new : Row} {p : RowIndices}
    (h : ReplacedAt root p old new root') (h' : ReplacedAt root p old new root'') :
    root' = root'' := by
  induction h generalizing root'' with
  | here => cases h'; rfl
  | @under r r' i j p old new v cells cells' w c c' hlen hn hn' ho hcl hc hc' hco h ih =>
    cases h' with
    | @under _ _ _ _ _ _ _ v2 cells2 cells2' w2 c2 c2' hlen2 hn2 hn2' ho2 hcl2 hc2 hc2' hco2 h2 =>
      rw [hn] at hn2
      obtain ⟨rfl, rfl, rfl⟩ := by simpa using hn2
      rw [hc] at hc2
      cases hc2
      have e := ih h2
      subst e
      have hcells : cells' = cells2' := by
        apply List.ext_getElem?
        intro k
        by_cases hk : k = j
        · subst hk; rw [hc', hc2']
        · rw [hco k hk, hco2 k hk]
      subst hcells
      apply List.ext_getElem?
      intro k
      by_cases hk : k = i
      · subst hk; rw [hn', hn2']
      · rw [ho k hk, ho2 k hk]

/-- Replacing a row by a well-formed one keeps the tree well-formed. -/
theorem ReplacedAt.wf {root root' old new : Row} {p : RowIndices}
    (h : ReplacedAt root p old new root') (hroot : rowWf root = true) (hnew : rowWf new = true) :
    rowWf root' = true := by
  induction h with
  | here => exact hnew
  | @under r r' i j p old new v cells cells' w c c' hlen hn hn' ho hcl hc hc' hco h ih =>
    have hcont := wf_container.1 (rowWf_iff.1 hroot _ (List.mem_of_getElem? hn))
    have hc'wf := ih (hcont.2 c (List.mem_of_getElem? hc)) hnew
    refine rowWf_iff.2 fun n hmem => ?_
    obtain ⟨k, hk⟩ := List.getElem?_of_mem hmem
    by_cases hki : k = i
    · subst hki
      rw [hn'] at hk
      cases hk
      refine wf_container.2 ⟨by rw [hcl]; exact hcont.1, fun x hx => ?_⟩
      obtain ⟨l, hl⟩ := List.getElem?_of_mem hx
      by_cases hlj : l = j
      · subst hlj; rw [hc'] at hl; cases hl; exact hc'wf
      · rw [hco l hlj] at hl
        exact hcont.2 x (List.mem_of_getElem? hl)
    · rw [ho k hki] at hk
      exact rowWf_iff.1 hroot n (List.mem_of_getElem? hk)

end Aftermath
