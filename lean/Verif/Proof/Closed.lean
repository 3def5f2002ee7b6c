import Verif.Spec.Closed
import Verif.Spec.Expression
import Verif.Proof.BracketsSwap

/-! # Lemmas for C111 -/

namespace Aftermath

variable {x : Xid}

theorem escapes_inQuotes {s t : List Char} (h : Escapes s t) : InQuotes (t.map fun c => [c]) := by
  induction h with
  | nil => exact .nil
  | plain h1 h2 _ ih => exact .plain (by simpa using h1) (by simpa using h2) ih
  | escaped _ ih => exact .escaped ih

/-- What holds for all rows of a formula, at any depth. -/
def AllRows (P : Row → Prop) (row : Row) : Prop := ∀ p r, rowAt row p = some r → P r

theorem allRows_iff {P : Row → Prop} {row : Row} : AllRows P row ↔ P row ∧
    ∀ v cells w, Node.container v cells w ∈ row → ∀ c ∈ cells, AllRows P c := by
  constructor
  · refine fun h => ⟨h [] row rfl, fun v cells w hm c hc p r hr => ?_⟩
    obtain ⟨i, hi⟩ := List.mem_iff_getElem?.1 hm
    obtain ⟨j, hj⟩ := List.mem_iff_getElem?.1 hc
    exact h ((i, j) :: p) r (rowAt_cons.2 ⟨v, cells, w, c, hi, hj, hr⟩)
  · rintro ⟨h1, h2⟩ p r hr
    cases p with
    | nil => cases hr; exact h1
    | cons ij p =>
      obtain ⟨i, j⟩ := ij
      obtain ⟨v, cells, w, c, hi, hj, hr⟩ := rowAt_cons.1 hr
      exact h2 v cells w (List.mem_of_getElem? hi) c (List.mem_of_getElem? hj) p r hr

/-- What is used of a property of rows. -/
structure Concat (x : Xid) (P : Row → Prop) : Prop where
  append : ∀ {a b}, P a → P b → P (a ++ b)
  nil : P []
  container : ∀ v cells w, P [.container v cells w]
  known : ∀ c, KnownChar x c → c ≠ '(' → c ≠ ')' → c ≠ '"' → P [sy c]
  brackets : ∀ {a}, P a → P (inBrackets a)
  quotes : ∀ {l : List Str}, InQuotes l → P (sy '"' :: (l.map Node.symbol ++ [sy '"']))

namespace Concat

variable {P : Row → Prop}

theorem all_append (h : Concat x P) {a b : Row} (ha : AllRows P a) (hb : AllRows P b) :
    AllRows P (a ++ b) := by
  rw [allRows_iff] at *
  refine ⟨h.append ha.1 hb.1, fun v cells w hm => ?_⟩
  rcases List.mem_append.1 hm with hm | hm
  · exact ha.2 v cells w hm
  · exact hb.2 v cells w hm

theorem text (h : Concat x P) {s : List Char}
    (hs : ∀ c ∈ s, KnownChar x c ∧ c ≠ '(' ∧ c ≠ ')' ∧ c ≠ '"') : AllRows P (s.map sy) := by
  rw [allRows_iff]
  refine ⟨?_, fun v cells w hm => ?_⟩
  · induction s with
    | nil => exact h.nil
    | cons c s ih =>
      obtain ⟨h1, h2, h3, h4⟩ := hs c List.mem_cons_self
      exact h.append (a := [sy c]) (h.known c h1 h2 h3 h4) (ih fun d hd => hs d (List.mem_cons_of_mem _ hd))
  · obtain ⟨c, -, hc⟩ := List.mem_map.1 hm
    cases hc

theorem sign (h : Concat x P) {c : Char} (hc : c ∈ reservedChars) (h1 : c ≠ '(') (h2 : c ≠ ')')
    (h3 : c ≠ '"') : AllRows P [sy c] :=
  h.text (s := [c]) fun d hd => by
    rw [List.mem_singleton.1 hd]
    exact ⟨.inr (.inr (.inr hc)), h1, h2, h3⟩

theorem spaces (h : Concat x P) (j : Nat) : AllRows P (sp j) := by
  have := h.text (s := List.replicate j ' ') fun c hc => by
    rw [List.eq_of_mem_replicate hc]
    exact ⟨.inr (.inr (.inr (by decide))), by decide, by decide, by decide⟩
  simpa [sp] using this

theorem cells (h : Concat x P) {v : Variant} {cells : List Row} {w : Nat}
    (hc : ∀ c ∈ cells, AllRows P c) : AllRows P [.container v cells w] := by
  rw [allRows_iff]
  refine ⟨h.container v cells w, fun v' cells' w' hm => ?_⟩
  cases List.mem_singleton.1 hm
  exact hc

theorem all_brackets (h : Concat x P) {a : Row} (ha : AllRows P a) : AllRows P (inBrackets a) := by
  rw [allRows_iff] at *
  refine ⟨h.brackets ha.1, fun v cells w hm => ?_⟩
  simp only [inBrackets, sy, List.cons_append, List.mem_cons, List.mem_append, List.not_mem_nil,
    or_false, reduceCtorEq, false_or] at hm
  exact ha.2 v cells w hm

theorem op (h : Concat x P) {s : List Char}
    (hs : ∀ c ∈ s, KnownChar x c ∧ c ≠ '(' ∧ c ≠ ')' ∧ c ≠ '"') {ss : List (ScriptKind × Row)} {w : Row}
    (hw : WritesOp s ss w) (hss : ∀ y ∈ ss, AllRows P y.2) : AllRows P w := by
  induction hw with
  | sign j => exact h.all_append (h.text hs) (h.spaces j)
  | @script ss r k q j _ ih =>
    refine h.all_append (ih fun y hy => hss y (List.mem_append_left _ hy))
      (h.all_append (a := [_]) (h.cells fun c hc => ?_) (h.spaces j))
    rw [List.mem_singleton.1 hc]
    exact hss (k, q) (by simp)

end Concat

theorem Xid.Usual.letter (hx : x.Usual) {c : Char} (hc : x.start c = true ∨ x.continue_ c = true) :
    KnownChar x c ∧ c ≠ '(' ∧ c ≠ ')' ∧ c ≠ '"' := by
  refine ⟨.inr (hc.imp_right .inl), ?_⟩
  have key : ∀ d ∈ reservedChars, c ≠ d := by
    rintro d hd rfl
    obtain ⟨h1, h2⟩ := hx.reserved _ hd
    rw [h1, h2] at hc
    simp at hc
  exact ⟨key _ (by decide), key _ (by decide), key _ (by decide)⟩

theorem digit_known {c : Char} (hc : c.isDigit = true) :
    KnownChar x c ∧ c ≠ '(' ∧ c ≠ ')' ∧ c ≠ '"' := by
  refine ⟨.inl hc, ?_, ?_, ?_⟩ <;> (rintro rfl; revert hc; decide)

/-- Everything of which formulas are written has such a property. -/
theorem writes_all (hx : x.Usual) {P : Row → Prop} (h : Concat x P) {e : Formula} {l r : Nat} {row : Row}
    (he : e.Writes x l r row) : AllRows P row := by
  induction he with
  | number hs =>
    refine h.text fun c hc => ?_
    cases hs with
    | whole hd => exact digit_known (hd.2 c hc)
    | decimal h1 h2 =>
      rcases List.mem_append.1 hc with hc | hc
      · exact digit_known (h1.2 c hc)
      · rcases List.mem_cons.1 hc with rfl | hc
        · exact ⟨.inr (.inr (.inr (by decide))), by decide, by decide, by decide⟩
        · exact digit_known (h2.2 c hc)
  | «variable» hs =>
    obtain ⟨c, cs, rfl, h1, h2, -⟩ := hs
    refine h.text fun d hd => ?_
    rcases List.mem_cons.1 hd with rfl | hd
    · exact hx.letter (.inl h1)
    · exact hx.letter (.inr (h2 d hd))
  | @constant l r k => cases k <;> exact h.sign (by decide) (by decide) (by decide) (by decide)
  | @string l r s t hs =>
    have hq := h.quotes (escapes_inQuotes hs)
    rw [List.map_map] at hq
    rw [allRows_iff]
    refine ⟨hq, fun v cells w hm => ?_⟩
    simp [sy] at hm
  | @bin l r a b p w q o n ks ss rows _ _ _ hw _ _ iha ihs ihb =>
    refine h.all_append iha (h.all_append (h.op (fun c hc => ?_) hw fun y hy => ?_) ihb)
    · rw [List.mem_singleton.1 hc]
      cases o <;> exact ⟨.inr (.inr (.inr (by decide))), by decide, by decide, by decide⟩
    · obtain ⟨i, rfl⟩ := List.mem_ofFn.1 hy
      exact ihs i
  | @pre l r a w q o n ks ss rows _ hw _ _ _ ihs iha =>
    refine h.all_append (h.op (fun c hc => ?_) hw fun y hy => ?_) iha
    · have halpha : ∀ s : List Char, (∀ c ∈ s, c.isAlpha = true) → c ∈ s →
          KnownChar x c ∧ c ≠ '(' ∧ c ≠ ')' ∧ c ≠ '"' := fun s h1 h2 =>
        hx.letter (.inl (hx.letters c (h1 c h2)).1)
      cases o with
      | lim => exact halpha _ (by decide) hc
      | limSup => exact halpha _ (by decide) hc
      | limInf => exact halpha _ (by decide) hc
      | _ =>
        rw [List.mem_singleton.1 hc]
        exact ⟨.inr (.inr (.inr (by decide))), by decide, by decide, by decide⟩
    · obtain ⟨i, rfl⟩ := List.mem_ofFn.1 hy
      exact ihs i
  | @post l r a p o _ ih =>
    refine h.all_append ih ?_
    cases o <;> exact h.sign (by decide) (by decide) (by decide) (by decide)
  | script _ _ iha ihb =>
    exact h.all_append iha (h.cells fun c hc => by rw [List.mem_singleton.1 hc]; exact ihb)
  | apply _ _ iha ihb => exact h.all_append iha (h.all_brackets ihb)
  | call _ iha => exact h.all_append iha (h.all_brackets (h.text (s := []) nofun))
  | unit => exact h.all_brackets (h.text (s := []) nofun)
  | fraction _ _ iha ihb =>
    refine h.cells fun c hc => ?_
    rcases List.mem_cons.1 hc with rfl | hc
    · exact iha
    · rw [List.mem_singleton.1 hc]; exact ihb
  | root _ _ iha ihb =>
    refine h.cells fun c hc => ?_
    rcases List.mem_cons.1 hc with rfl | hc
    · exact iha
    · rw [List.mem_singleton.1 hc]; exact ihb
  | table _ _ _ _ ih =>
    refine h.cells fun c hc => ?_
    obtain ⟨i, rfl⟩ := List.mem_ofFn.1 hc
    exact ih i
  | brackets _ ih => exact h.all_brackets ih
  | before _ ih =>
    exact h.all_append (a := [sy ' ']) (h.sign (by decide) (by decide) (by decide) (by decide)) ih
  | after _ ih =>
    exact h.all_append ih (h.sign (by decide) (by decide) (by decide) (by decide))

theorem balanced_concat : Concat x (Balanced 0) where
  append ha hb := ha.append hb
  nil := .nil
  container v cells w := .container .nil
  known c _ h1 h2 h3 := .other (by simpa using h1) (by simpa using h2) (by simpa using h3) .nil
  brackets ha := .opening (by
    have := ha.append (Balanced.closing (.nil))
    simpa [sy] using this)
  quotes hl := .quotes hl .nil

theorem Legible.append {a b : Row} (ha : Legible x a) (hb : Legible x b) : Legible x (a ++ b) := by
  induction ha with
  | nil => exact hb
  | container _ ih => exact .container ih
  | known h1 h2 _ ih => exact .known h1 h2 ih
  | @quotes l r hl _ ih =>
    have : sy '"' :: (l.map Node.symbol ++ sy '"' :: r) ++ b =
        sy '"' :: (l.map Node.symbol ++ sy '"' :: (r ++ b)) := by simp
    rw [this]
    exact .quotes hl ih

theorem legible_concat : Concat x (Legible x) where
  append := Legible.append
  nil := .nil
  container v cells w := .container .nil
  known c h _ _ h3 := .known h h3 .nil
  brackets ha := .known (.inr (.inr (.inr (by decide)))) (by decide)
    (ha.append (.known (.inr (.inr (.inr (by decide)))) (by decide) .nil))
  quotes hl := .quotes hl .nil

mutual
theorem shift_names (k : Nat) : ∀ t : SNode, (t.shift k).names = t.names
  | .newRows .. => rfl
  | .children _ _ _ cs => by simp only [SNode.shift, SNode.names, shiftAll_names k cs]
  | .leaf .. => rfl
theorem shiftAll_names (k : Nat) : ∀ ts : List SNode, treesNames (SNode.shiftAll k ts) = treesNames ts
  | [] => rfl
  | t :: ts => by simp only [SNode.shiftAll, treesNames, shift_names k t, shiftAll_names k ts]
end

theorem treesNames_mem {t : SNode} {k : Nat} : ∀ {ts : List SNode}, t ∈ ts → k ∈ t.names →
    k ∈ treesNames ts
  | u :: us, h, hk => by
    rw [treesNames, List.mem_append]
    rcases List.mem_cons.1 h with rfl | h
    · exact .inl hk
    · exact .inr (treesNames_mem h hk)

theorem partOf_names {u t : SNode} (h : u.PartOf t) : ∀ k ∈ u.names, k ∈ t.names := by
  induction h with
  | here => exact fun _ h => h
  | child hc _ ih =>
    intro k hk
    rw [SNode.names]
    exact List.mem_cons_of_mem _ (treesNames_mem hc (ih k hk))

/-- The number of brackets to be closed is determined. -/
theorem balanced_unique {a b : Nat} {r : Row} (ha : Balanced a r) (hb : Balanced b r) : a = b := by
  have key : ∀ {a b : Nat}, Balanced a r → Balanced (a + b) r → b = 0 := by
    intro a b ha hb
    have := ha.rest (X := []) (b := b) (by simpa using hb)
    cases this
    rfl
  rcases Nat.le_total a b with h | h
  · obtain ⟨c, rfl⟩ := Nat.exists_eq_add_of_le h
    rw [key ha hb]
    rfl
  · obtain ⟨c, rfl⟩ := Nat.exists_eq_add_of_le h
    rw [key hb ha]
    rfl

/-- A bracket outside of quotes makes a difference. -/
theorem balanced_bracket {pre post : Row} {n : Nat} {c : Char} (hc : c = '(' ∨ c = ')')
    (hpre : Balanced 0 (pre ++ List.replicate n (sy ')')))
    (h1 : Balanced 0 (pre ++ sy c :: post)) (h2 : Balanced 0 (pre ++ post)) : False := by
  have h3 := (balanced_behind _ 0 pre rfl hpre).1 h1
  have h4 := (balanced_behind _ 0 pre rfl hpre).1 h2
  rcases hc with rfl | rfl
  · have := balanced_unique h3.open h4
    omega
  · obtain ⟨d, rfl, h5⟩ := h3.close
    have := balanced_unique h5 h4
    omega

end Aftermath
