import Verif.Proof.DomMarks
import Verif.Spec.Size

/-! # Lemmas on the number of shown elements -/

namespace Aftermath

mutual
/-- The number of rendered elements. -/
def RElem.size : RElem → Nat
  | .mk _ _ _ cs => 1 + relemsSize cs
/-- see `RElem.size` -/
def relemsSize : List RElem → Nat
  | [] => 0
  | e :: es => e.size + relemsSize es
end

theorem relemsSize_eq : ∀ (es : List RElem), relemsSize es = (es.map RElem.size).sum
  | [] => rfl
  | e :: es => by rw [relemsSize, relemsSize_eq es, List.map_cons, List.sum_cons]

theorem treesSize_eq : ∀ (ts : List SNode), treesSize ts = (ts.map SNode.size).sum
  | [] => rfl
  | t :: ts => by rw [treesSize, treesSize_eq ts, List.map_cons, List.sum_cons]

variable {R : Renderers}

/-- There is one rendered element for each node of the tree. -/
theorem render_size : ∀ {t : SNode} {ri : Option RowIndex} {o : ROpts} {e : RElem},
    render R ri o t = .ok e → e.size = t.size
  | .leaf n lo hi ty ss, ri, o, e, h => by
    rw [render] at h
    split at h <;> first
      | (cases h; rfl)
      | cases h
  | .children n lo hi cs, ri, o, e, h => by
    cases hk : hashGet R n with
    | none => rw [render, hk] at h; cases h
    | some k =>
      cases hc : contOf ri o k with
      | some x =>
        obtain ⟨tag, o'⟩ := x
        obtain ⟨-, hne, -, es, hes, rfl⟩ := (render_children_ok hk hc).1 h
        rw [RElem.size, SNode.size, relemsSize_eq, treesSize_eq]
        congr 2
        refine List.ext_getElem (by simp [hes.length_eq]) fun i h1 h2 => ?_
        simp only [List.length_map] at h1 h2
        simp only [List.getElem_map]
        have hm : cs[i] ∈ cs := List.getElem_mem _
        exact render_size ((List.forall₂_iff_get.1 hes).2 i h2 h1)
      | none =>
        rw [render, hk] at h
        cases k <;> first
          | (cases hc; done)
          | cases h
          | (simp only [massert_bind, List.isEmpty_iff, beq_iff_eq] at h
             obtain ⟨rfl, rfl, h⟩ := h
             cases h
             rfl)
  | .newRows n lo hi ts w, ri, o, e, h => by
    cases hk : hashGet R n with
    | none => rw [render, hk] at h; cases h
    | some k =>
      cases hc : rowsOf o ri k with
      | none =>
        rw [render, hk] at h
        cases k <;> first
          | (cases hc; done)
          | cases h
          | (simp only [rowsOf, Option.map_eq_none_iff] at hc
             simp only [hc] at h
             cases h)
      | some x =>
        obtain ⟨ek, tag, ri'⟩ := x
        obtain ⟨-, -, -, hw, es, hes, rfl⟩ := (render_newRows_ok hk hc).1 h
        obtain ⟨hel, hes⟩ := renderRows_ok.1 hes
        rw [RElem.size, SNode.size, relemsSize_eq, treesSize_eq]
        congr 2
        refine List.ext_getElem (by simp [hel]) fun i h1 h2 => ?_
        simp only [List.length_map] at h1 h2
        simp only [List.getElem_map]
        have hm : ts[i] ∈ ts := List.getElem_mem _
        exact render_size (hes i _ _ (List.getElem?_eq_getElem h2) (List.getElem?_eq_getElem h1))
termination_by t => sizeOf t

/-- The number of elements, of any kind. -/
abbrev eltsAll (es : List Elt) : Nat := eltsCount (fun _ _ => true) es

theorem wrapInMRow_all (es : List Elt) : (wrapInMRow es).count (fun _ _ => true) ≤ eltsAll es + 1 := by
  unfold wrapInMRow
  split
  · simp [eltsAll, eltsCount]
  · rw [Elt.count]
    simp only [if_true, eltsAll]
    omega

theorem wraps_all : ∀ (ls : List (List Elt)),
    eltsAll (ls.map wrapInMRow) ≤ (ls.map fun l => eltsAll l + 1).sum
  | [] => by simp [eltsAll, eltsCount]
  | l :: ls => by
    have h1 := wraps_all ls
    have h2 := wrapInMRow_all l
    simp only [eltsAll, List.map_cons, eltsCount, List.sum_cons] at *
    omega

theorem cells_all : ∀ (ls : List (List Elt)),
    eltsAll (ls.map fun c => .elem .mtd false [wrapInMRow c]) ≤ (ls.map fun l => eltsAll l + 2).sum
  | [] => by simp [eltsAll, eltsCount]
  | l :: ls => by
    have h1 := cells_all ls
    have h2 := wrapInMRow_all l
    simp only [eltsAll, List.map_cons, eltsCount, List.sum_cons, Elt.count, if_true] at *
    omega

theorem tableElts_all (w : Nat) : ∀ (n : Nat) (cells : List (List Elt)),
    eltsAll (tableElts w n cells) ≤ n + (cells.map fun l => eltsAll l + 2).sum
  | 0, _ => by simp [tableElts, eltsAll, eltsCount]
  | n + 1, [] => by simp [tableElts, eltsAll, eltsCount]
  | n + 1, c :: cs => by
    have ih := tableElts_all w n ((c :: cs).drop w)
    have h1 := cells_all ((c :: cs).take w)
    have h2 : tableElts w (n + 1) (c :: cs) =
        .elem .mtr false (((c :: cs).take w).map fun c => .elem .mtd false [wrapInMRow c]) ::
          tableElts w n ((c :: cs).drop w) := rfl
    have h3 : ((c :: cs).map fun l => eltsAll l + 2).sum =
        (((c :: cs).take w).map fun l => eltsAll l + 2).sum +
          (((c :: cs).drop w).map fun l => eltsAll l + 2).sum := by
      conv_lhs => rw [← List.take_append_drop w (c :: cs), List.map_append, List.sum_append]
    rw [h2, h3]
    simp only [eltsAll, eltsCount, Elt.count, if_true] at *
    omega

mutual
theorem elements_all : ∀ (e : RElem), eltsAll e.elements + 3 ≤ 6 * e.size
  | .mk k t ri cs => by
    have ih := elementsAll_all cs
    have h2 : ((elementsAll cs).map fun l => eltsAll l + 1).sum ≤ 6 * relemsSize cs := by
      refine Nat.le_trans ?_ ih
      clear ih
      induction elementsAll cs with
      | nil => simp
      | cons l ls ih => simp only [List.map_cons, List.sum_cons]; omega
    have h3 : cs.length + ((elementsAll cs).map fun l => eltsAll l + 2).sum ≤ 6 * relemsSize cs := by
      refine Nat.le_trans (Nat.le_of_eq ?_) ih
      rw [elementsAll_eq, List.map_map, List.map_map]
      clear ih h2
      induction cs with
      | nil => rfl
      | cons c cs ih =>
        simp only [List.length_cons, List.map_cons, List.sum_cons, Function.comp_apply] at ih ⊢
        omega
    have htx : ∀ t : SNode, eltsAll t.texts = 0 := fun t => by
      cases t with
      | leaf => exact texts_count _
      | _ => rfl
    cases k with
    | nothing => simp [RElem.elements, eltsAll, eltsCount, Elt.count, RElem.size]; omega
    | missing => simp [RElem.elements, eltsAll, eltsCount, Elt.count, RElem.size]; omega
    | text tag =>
      have := htx t
      simp only [RElem.elements, eltsAll, eltsCount, Elt.count, RElem.size, if_true] at this ⊢
      omega
    | symbol tag s =>
      have := htx t
      simp only [RElem.elements, eltsAll, eltsCount, Elt.count, RElem.size, if_true] at this ⊢
      omega
    | container tag =>
      have := wraps_all (elementsAll cs)
      simp only [RElem.elements, eltsAll, eltsCount, Elt.count, RElem.size, if_true] at this h2 ⊢
      omega
    | rows tag =>
      have := wraps_all (elementsAll cs)
      simp only [RElem.elements, eltsAll, eltsCount, Elt.count, RElem.size, phantom, if_true] at this h2 ⊢
      omega
    | root tag =>
      have := wraps_all (elementsAll cs).reverse
      rw [List.map_reverse, List.map_reverse, List.sum_reverse, ← List.map_reverse] at this
      simp only [RElem.elements, eltsAll, eltsCount, Elt.count, RElem.size, phantom, if_true] at this h2 ⊢
      omega
    | table =>
      have := tableElts_all t.width cs.length (elementsAll cs)
      simp only [RElem.elements, eltsAll, eltsCount, Elt.count, RElem.size, phantom, if_true] at this h3 ⊢
      omega
theorem elementsAll_all : ∀ (es : List RElem),
    ((elementsAll es).map fun l => eltsAll l + 3).sum ≤ 6 * relemsSize es
  | [] => by simp [elementsAll]
  | e :: es => by
    have h1 := elements_all e
    have h2 := elementsAll_all es
    rw [elementsAll, List.map_cons, List.sum_cons, relemsSize]
    omega
end

end Aftermath
