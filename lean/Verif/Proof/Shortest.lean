import Verif.Spec.Shortest
import Verif.Proof.Notation
import Verif.Proof.Edit

/-! # Lemmas for C115 -/

namespace Aftermath

variable {x : Xid}

theorem rowExtent_append (a b : Row) : rowExtent (a ++ b) = rowExtent a + rowExtent b := by
  induction a with
  | nil => simp [rowExtent]
  | cons n a ih => rw [List.cons_append, rowExtent, rowExtent, ih, Nat.add_assoc]

theorem rowExtent_text (s : List Char) : rowExtent (s.map sy) = s.length := by
  induction s with
  | nil => rfl
  | cons c s ih => rw [List.map_cons, rowExtent, ih, List.length_cons, sy, Node.extent, Nat.add_comm]

theorem rowExtent_brackets (a : Row) : rowExtent (inBrackets a) = rowExtent a + 2 := by
  simp only [inBrackets, rowExtent_append, rowExtent, sy, Node.extent]
  omega

theorem cellsExtent_mono : ∀ {n : Nat} {rows rows' : Fin n → Row},
    (∀ i, rowExtent (rows i) ≤ rowExtent (rows' i)) →
      cellsExtent (List.ofFn rows) ≤ cellsExtent (List.ofFn rows')
  | 0, _, _, _ => by simp
  | n + 1, rows, rows', h => by
    rw [List.ofFn_succ, List.ofFn_succ, cellsExtent, cellsExtent]
    exact Nat.add_le_add (h 0) (cellsExtent_mono fun i => h i.succ)

theorem scriptsExtent_mono : ∀ {n : Nat} {ks : Fin n → ScriptKind} {rows rows' : Fin n → Row},
    (∀ i, rowExtent (rows i) ≤ rowExtent (rows' i)) →
      rowExtent ((List.ofFn fun i => (ks i, rows i)).map fun s => .container s.1.variant [s.2] 1) ≤
        rowExtent ((List.ofFn fun i => (ks i, rows' i)).map fun s => .container s.1.variant [s.2] 1)
  | 0, _, _, _, _ => by simp
  | n + 1, ks, rows, rows', h => by
    rw [List.ofFn_succ, List.ofFn_succ, List.map_cons, List.map_cons, rowExtent, rowExtent]
    have h1 := h 0
    have h2 := scriptsExtent_mono (ks := fun i => ks i.succ) fun i => h i.succ
    simp only [Node.extent, cellsExtent] at h2 ⊢
    omega

theorem writeOp_mono (sign : List Char) {n : Nat} {ks : Fin n → ScriptKind} {rows rows' : Fin n → Row}
    (h : ∀ i, rowExtent (rows i) ≤ rowExtent (rows' i)) :
    rowExtent (writeOp sign (List.ofFn fun i => (ks i, rows i))) ≤
      rowExtent (writeOp sign (List.ofFn fun i => (ks i, rows' i))) := by
  rw [writeOp, writeOp, rowExtent_append, rowExtent_append]
  exact Nat.add_le_add_left (scriptsExtent_mono h) _

theorem writeOp_shortest {sign : List Char} {ss : List (ScriptKind × Row)} {w : Row}
    (h : WritesOp sign ss w) : rowExtent (writeOp sign ss) ≤ rowExtent w := by
  induction h with
  | sign j => simp [writeOp, rowExtent_append]
  | @script ss r k q j _ ih =>
    simp only [writeOp, rowExtent_append, List.map_append, List.map_cons, List.map_nil, rowExtent,
      Node.extent, cellsExtent] at ih ⊢
    omega

theorem escape_shortest {s t : List Char} (h : Escapes s t) : (escape s).length ≤ t.length := by
  induction h with
  | nil => simp [escape]
  | @plain c s t h1 h2 _ ih =>
    rw [escape, if_neg (by simp [h1, h2])]
    simpa using ih
  | @escaped c s t _ ih =>
    rw [escape]
    split <;> simp only [List.length_cons] <;> omega

/-- The sign of a prefix operator is not taken for a longer one. -/
theorem joins_marked {o : PreOp} {n : Nat} {ks : Fin n → ScriptKind} {rows : Fin n → Row}
    (h : o = .lim → 0 < n) (q : Row) :
    o.joins (writeOp o.text (List.ofFn fun i => (ks i, rows i)) ++ q) = false := by
  cases o with
  | lim =>
    obtain ⟨n, rfl⟩ : ∃ k, n = k + 1 := ⟨n - 1, by have := h rfl; omega⟩
    rw [List.ofFn_succ]
    simp [PreOp.joins, writeOp, PreOp.text, sy]
    exact ⟨rfl, rfl⟩
  | _ => rfl

theorem write_pre {o : PreOp} {n : Nat} {ks : Fin n → ScriptKind} {ss : Fin n → Formula} {a : Formula}
    (h : o = .lim → 0 < n) (l r : Nat) : (Formula.pre o n ks ss a).write l r =
      let w := writeOp o.text (List.ofFn fun i => (ks i, (ss i).write 0 0))
      if r ≤ o.level then w ++ a.write o.level r else inBrackets (w ++ a.write o.level 0) := by
  rw [Formula.write]
  simp only [joins_marked h, Bool.false_eq_true, if_false]

/-- Between a looser and a tighter operator it does not matter which one is on the left. -/
theorem write_left (e : Formula) (he : e.LimitsMarked) (l r : Nat) (h : l < r ∨ 6 ≤ r) :
    e.write l r = e.write 0 r := by
  induction e generalizing l r with
  | number s => rfl
  | «variable» s => rfl
  | constant k => rfl
  | string s => rfl
  | bin o n ks ss a b ihs iha ihb =>
    have hb := o.level_bounds
    rw [Formula.write, Formula.write]
    by_cases h1 : r ≤ o.level
    · have h2 : l < o.level := by omega
      rw [if_pos ⟨h2, h1⟩, if_pos ⟨by omega, h1⟩, iha he.2.1 l o.level (.inl h2)]
    · rw [if_neg (fun h => h1 h.2), if_neg (fun h => h1 h.2)]
  | pre o n ks ss a ihs ih => rw [write_pre he.1, write_pre he.1]
  | post o a ih => rw [Formula.write, Formula.write, ih he l 6 (.inr (by omega))]
  | script k a b iha ihb => rw [Formula.write, Formula.write, iha he.1 l 6 (.inr (by omega))]
  | apply a b iha ihb => rw [Formula.write, Formula.write, iha he.1 l 6 (.inr (by omega))]
  | call a ih => rw [Formula.write, Formula.write, ih he l 6 (.inr (by omega))]
  | unit => rfl
  | fraction a b iha ihb => rw [Formula.write, Formula.write]
  | root a b iha ihb => rw [Formula.write, Formula.write]
  | table w n cells ih => rw [Formula.write, Formula.write]

/-- An operator on the right makes no more than one pair of brackets necessary. -/
theorem write_right (e : Formula) (he : e.LimitsMarked) (l r : Nat) :
    rowExtent (e.write l r) ≤ rowExtent (e.write l 0) + 2 := by
  induction e generalizing l r with
  | number s => simp [Formula.write]
  | «variable» s => simp [Formula.write]
  | constant k => simp [Formula.write]
  | string s => simp [Formula.write]
  | bin o n ks ss a b ihs iha ihb =>
    have hlv := o.level_bounds
    have hb := ihb he.2.2 o.level r
    rw [Formula.write, Formula.write]
    by_cases h1 : l < o.level
    · by_cases h2 : r ≤ o.level
      · rw [if_pos ⟨h1, h2⟩, if_pos ⟨h1, by omega⟩]
        simp only [rowExtent_append]
        omega
      · rw [if_neg (fun h => h2 h.2), if_pos ⟨h1, by omega⟩, write_left a he.2.1 l o.level (.inl h1),
          rowExtent_brackets]
        exact Nat.le_refl _
    · rw [if_neg (fun h => h1 h.1), if_neg (fun h => h1 h.1)]
      omega
  | pre o n ks ss a ihs ih =>
    have ha := ih he.2.2 o.level r
    rw [write_pre he.1, write_pre he.1]
    dsimp only
    rw [if_pos (Nat.zero_le _)]
    split
    · simp only [rowExtent_append]
      omega
    · rw [rowExtent_brackets]
      exact Nat.le_refl _
  | post o a ih => rw [Formula.write, Formula.write]; omega
  | script k a b iha ihb => rw [Formula.write, Formula.write]; omega
  | apply a b iha ihb => rw [Formula.write, Formula.write]; omega
  | call a ih => rw [Formula.write, Formula.write]; omega
  | unit => simp [Formula.write]
  | fraction a b iha ihb => rw [Formula.write, Formula.write]; omega
  | root a b iha ihb => rw [Formula.write, Formula.write]; omega
  | table w n cells ih => rw [Formula.write, Formula.write]; omega

/-- Operators on both sides make no more than one pair of brackets necessary. -/
theorem write_between (e : Formula) (he : e.LimitsMarked) (l r : Nat) :
    rowExtent (e.write l r) ≤ rowExtent (e.write 0 0) + 2 := by
  cases e with
  | number s => simp [Formula.write]
  | «variable» s => simp [Formula.write]
  | constant k => simp [Formula.write]
  | string s => simp [Formula.write]
  | bin o n ks ss a b =>
    have hlv := o.level_bounds
    rw [Formula.write, Formula.write]
    rw [if_pos (⟨by omega, by omega⟩ : 0 < o.level ∧ 0 ≤ o.level)]
    split
    · rename_i h
      have hb := write_right b he.2.2 o.level r
      rw [write_left a he.2.1 l o.level (.inl h.1)]
      simp only [rowExtent_append]
      omega
    · rw [rowExtent_brackets]
      exact Nat.le_refl _
  | pre o n ks ss a =>
    have h := write_right (.pre o n ks ss a) he l r
    rw [write_pre he.1 l 0, ← write_pre he.1 0 0] at h
    exact h
  | post o a => rw [Formula.write, Formula.write, write_left a he l 6 (.inr (by omega))]; omega
  | script k a b => rw [Formula.write, Formula.write, write_left a he.1 l 6 (.inr (by omega))]; omega
  | apply a b => rw [Formula.write, Formula.write, write_left a he.1 l 6 (.inr (by omega))]; omega
  | call a => rw [Formula.write, Formula.write, write_left a he l 6 (.inr (by omega))]; omega
  | unit => simp [Formula.write]
  | fraction a b => rw [Formula.write, Formula.write]; omega
  | root a b => rw [Formula.write, Formula.write]; omega
  | table w n cells => rw [Formula.write, Formula.write]; omega

/-- There is no shorter way to write a formula than `Formula.write`. -/
theorem write_shortest {e : Formula} {l r : Nat} {row : Row} (h : e.Writes x l r row)
    (he : e.LimitsMarked) : rowExtent (e.write l r) ≤ rowExtent row := by
  induction h with
  | number _ => exact Nat.le_refl _
  | «variable» _ => exact Nat.le_refl _
  | constant => exact Nat.le_refl _
  | string h =>
    have := escape_shortest h
    simp only [Formula.write, List.cons_append, rowExtent, rowExtent_append, rowExtent_text]
    omega
  | @bin l r a b p w q o n ks ss rows hl hr _ hw _ _ ih1 ih2 ih3 =>
    have h1 := ih1 he.2.1
    have h2 := Nat.le_trans (writeOp_mono [o.char] (ks := ks) fun i => ih2 i (he.1 i)) (writeOp_shortest hw)
    have h3 := ih3 he.2.2
    rw [Formula.write]
    rw [if_pos ⟨hl, hr⟩]
    simp only [rowExtent_append]
    omega
  | @pre l r a w q o n ks ss rows hr hw _ _ _ ih1 ih2 =>
    have h2 := Nat.le_trans (writeOp_mono o.text (ks := ks) fun i => ih1 i (he.2.1 i)) (writeOp_shortest hw)
    have h3 := ih2 he.2.2
    rw [write_pre he.1]
    dsimp only
    rw [if_pos hr]
    simp only [rowExtent_append]
    omega
  | post _ ih =>
    have h1 := ih he
    simp only [Formula.write, rowExtent_append]
    omega
  | script _ _ ih1 ih2 =>
    have h1 := ih1 he.1
    have h2 := ih2 he.2
    simp only [Formula.write, rowExtent_append, rowExtent, Node.extent, cellsExtent]
    omega
  | apply _ _ ih1 ih2 =>
    have h1 := ih1 he.1
    have h2 := ih2 he.2
    simp only [Formula.write, rowExtent_append, rowExtent_brackets]
    omega
  | call _ ih =>
    have h1 := ih he
    simp only [Formula.write, rowExtent_append]
    omega
  | unit => exact Nat.le_refl _
  | fraction _ _ ih1 ih2 =>
    have h1 := ih1 he.1
    have h2 := ih2 he.2
    simp only [Formula.write, rowExtent, Node.extent, cellsExtent]
    omega
  | root _ _ ih1 ih2 =>
    have h1 := ih1 he.1
    have h2 := ih2 he.2
    simp only [Formula.write, rowExtent, Node.extent, cellsExtent]
    omega
  | table _ _ _ _ ih =>
    have h1 := cellsExtent_mono fun i => ih i (he i)
    simp only [Formula.write, rowExtent, Node.extent]
    omega
  | brackets _ ih =>
    have h1 := ih he
    have h2 := write_between _ he
    rw [rowExtent_brackets]
    exact Nat.le_trans (h2 _ _) (by omega)
  | before _ ih =>
    have h1 := ih he
    rw [rowExtent]
    omega
  | after _ ih =>
    have h1 := ih he
    rw [rowExtent_append]
    omega

/-- What is written is proper. -/
theorem writes_proper {e : Formula} {l r : Nat} {row : Row} (h : e.Writes x l r row) : e.Proper x := by
  induction h with
  | number h => exact h
  | «variable» h => exact h
  | constant => trivial
  | string _ => trivial
  | bin _ _ _ _ _ _ ih1 ih2 ih3 => exact ⟨ih2, ih1, ih3⟩
  | pre _ _ _ _ _ ih1 ih2 => exact ⟨ih1, ih2⟩
  | post _ ih => exact ih
  | script _ _ ih1 ih2 => exact ⟨ih1, ih2⟩
  | apply _ _ ih1 ih2 => exact ⟨ih1, ih2⟩
  | call _ ih => exact ih
  | unit => trivial
  | fraction _ _ ih1 ih2 => exact ⟨ih1, ih2⟩
  | root _ _ ih1 ih2 => exact ⟨ih1, ih2⟩
  | table h1 h2 h3 _ ih => exact ⟨h1, h2, h3, ih⟩
  | brackets _ ih => exact ih
  | before _ ih => exact ih
  | after _ ih => exact ih

/-! ## Symbols of one character -/

theorem plain_cells_iff {root : Row} : PlainRow root ↔ (∀ s, Node.symbol s ∈ root → ∃ c, s = [c]) ∧
    ∀ v cells w, Node.container v cells w ∈ root → ∀ c ∈ cells, PlainRow c := by
  constructor
  · intro h
    refine ⟨fun s hs => h [] root s rfl hs, fun v cells w hm c hc p r s hr hs => ?_⟩
    obtain ⟨i, hi⟩ := List.mem_iff_getElem?.1 hm
    obtain ⟨j, hj⟩ := List.mem_iff_getElem?.1 hc
    exact h ((i, j) :: p) r s (rowAt_cons.2 ⟨_, _, _, _, hi, hj, hr⟩) hs
  · intro h p r s hr hs
    cases p with
    | nil =>
      cases hr
      exact h.1 s hs
    | cons ij p =>
      obtain ⟨i, j⟩ := ij
      obtain ⟨v, cells, w, c, hi, hj, hr⟩ := rowAt_cons.1 hr
      exact h.2 v cells w (List.mem_iff_getElem?.2 ⟨i, hi⟩) c (List.mem_iff_getElem?.2 ⟨j, hj⟩) p r s hr hs

theorem plainRow_append {a b : Row} (ha : PlainRow a) (hb : PlainRow b) : PlainRow (a ++ b) := by
  rw [plain_cells_iff] at *
  refine ⟨fun s hs => ?_, fun v cells w hm => ?_⟩
  · rcases List.mem_append.1 hs with hs | hs
    · exact ha.1 s hs
    · exact hb.1 s hs
  · rcases List.mem_append.1 hm with hm | hm
    · exact ha.2 v cells w hm
    · exact hb.2 v cells w hm

theorem plainRow_text (s : List Char) : PlainRow (s.map sy) := by
  rw [plain_cells_iff]
  refine ⟨fun t ht => ?_, fun v cells w hm => ?_⟩
  · obtain ⟨c, -, hc⟩ := List.mem_map.1 ht
    cases hc
    exact ⟨c, rfl⟩
  · obtain ⟨c, -, hc⟩ := List.mem_map.1 hm
    cases hc

theorem plainRow_container {v : Variant} {cells : List Row} {w : Nat} (h : ∀ c ∈ cells, PlainRow c) :
    PlainRow [.container v cells w] := by
  rw [plain_cells_iff]
  refine ⟨fun t ht => ?_, fun v' cells' w' hm => ?_⟩
  · simp at ht
  · cases List.mem_singleton.1 hm
    exact h

theorem plainRow_brackets {a : Row} (h : PlainRow a) : PlainRow (inBrackets a) :=
  plainRow_append (a := sy '(' :: a) (plainRow_append (plainRow_text ['(']) h) (plainRow_text [')'])

theorem plainRow_sp (j : Nat) : PlainRow (sp j) := by
  have := plainRow_text (List.replicate j ' ')
  rwa [List.map_replicate] at this

theorem plainRow_op {sign : List Char} {ss : List (ScriptKind × Row)} {w : Row} (h : WritesOp sign ss w) :
    (∀ s ∈ ss, PlainRow s.2) → PlainRow w := by
  induction h with
  | sign j => exact fun _ => plainRow_append (plainRow_text _) (plainRow_sp j)
  | @script ss r k q j _ ih =>
    intro hs
    refine plainRow_append (ih fun s h => hs s (List.mem_append_left _ h))
      (plainRow_append (a := [_]) (plainRow_container fun c hc => ?_) (plainRow_sp j))
    rw [List.mem_singleton.1 hc]
    exact hs (k, q) (by simp)

theorem writes_plain {e : Formula} {l r : Nat} {row : Row} (h : e.Writes x l r row) : PlainRow row := by
  have ops : ∀ {n : Nat} {ks : Fin n → ScriptKind} {rows : Fin n → Row}, (∀ i, PlainRow (rows i)) →
      ∀ s ∈ List.ofFn fun i => (ks i, rows i), PlainRow s.2 := by
    intro n ks rows h s hs
    obtain ⟨i, rfl⟩ := List.mem_ofFn.1 hs
    exact h i
  induction h with
  | number _ => exact plainRow_text _
  | «variable» _ => exact plainRow_text _
  | @constant l r k => exact plainRow_text [k.char]
  | string _ => exact plainRow_append (a := _ :: _) (plainRow_text ('"' :: _)) (plainRow_text ['"'])
  | bin _ _ _ hw _ _ ih1 ih2 ih3 => exact plainRow_append ih1 (plainRow_append (plainRow_op hw (ops ih2)) ih3)
  | pre _ hw _ _ _ ih1 ih2 => exact plainRow_append (plainRow_op hw (ops ih1)) ih2
  | post _ ih => exact plainRow_append ih (plainRow_text [_])
  | script _ _ ih1 ih2 =>
    refine plainRow_append ih1 (plainRow_container fun c hc => ?_)
    rw [List.mem_singleton.1 hc]
    exact ih2
  | apply _ _ ih1 ih2 => exact plainRow_append ih1 (plainRow_brackets ih2)
  | call _ ih => exact plainRow_append ih (plainRow_text ['(', ')'])
  | unit => exact plainRow_text ['(', ')']
  | fraction _ _ ih1 ih2 =>
    refine plainRow_container fun c hc => ?_
    rcases List.mem_cons.1 hc with rfl | hc
    · exact ih1
    · rw [List.mem_singleton.1 hc]
      exact ih2
  | root _ _ ih1 ih2 =>
    refine plainRow_container fun c hc => ?_
    rcases List.mem_cons.1 hc with rfl | hc
    · exact ih1
    · rw [List.mem_singleton.1 hc]
      exact ih2
  | table _ _ _ _ ih =>
    refine plainRow_container fun c hc => ?_
    obtain ⟨i, rfl⟩ := List.mem_ofFn.1 hc
    exact ih i
  | brackets _ ih => exact plainRow_brackets ih
  | before _ ih => exact plainRow_append (plainRow_text [' ']) ih
  | after _ ih => exact plainRow_append ih (plainRow_text [' '])

end Aftermath
