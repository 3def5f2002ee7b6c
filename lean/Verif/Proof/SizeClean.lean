import Verif.Proof.RenderClean
import Verif.Proof.Size

/-! # Lemmas on the size of syntax trees without errors -/

namespace Aftermath

variable {g : Grammar}

theorem trees_clean : ∀ {cells : List Row} {ts : List SNode}, ts.length = cells.length →
    (∀ (i : Nat) (c : Row) (t : SNode), cells[i]? = some c → ts[i]? = some t →
      t.size + 1 ≤ 2 * rowWeight c) → treesSize ts ≤ 2 * cellsWeight cells
  | [], [], _, _ => by simp [treesSize]
  | c :: cells, t :: ts, hl, h => by
    have h1 := h 0 c t rfl rfl
    have h2 := trees_clean (by simpa using hl) fun i c t hc ht => h (i + 1) c t (by simpa using hc)
      (by simpa using ht)
    rw [treesSize, cellsWeight]
    omega

theorem made_size_clean {k : Cat} {row : Row} {a b : Nat} {t : SNode} (h : Made g k row a b t) :
    ErrorFree g t → t.size + 1 + 2 * restWeight row b ≤ 2 * restWeight row a := by
  induction h with
  | missing h => exact fun he => absurd he.parts.1 (by simp [Grammar.errorNames])
  | unknown h =>
    exact fun he => absurd (by simp [Grammar.errorNames])
      (he g.builtIn.unknownToken (by simp [SNode.names]))
  | missingOperator _ _ ih1 ih2 =>
    exact fun he => absurd he.parts.1 (by simp [Grammar.errorNames])
  | atom _ _ ih => exact ih
  | «prefix» _ _ _ ih1 ih2 =>
    intro he
    have he := he.parts.2
    have h1 := ih1 (he _ (by simp))
    have h2 := ih2 (he _ (by simp))
    simp only [SNode.size, treesSize]
    omega
  | «infix» _ _ _ _ ih1 ih2 ih3 =>
    intro he
    have he := he.parts.2
    have h1 := ih1 (he _ (by simp))
    have h2 := ih2 (he _ (by simp))
    have h3 := ih3 (he _ (by simp))
    simp only [SNode.size, treesSize]
    omega
  | «postfix» _ _ _ ih1 ih2 =>
    intro he
    have he := he.parts.2
    have h1 := ih1 (he _ (by simp))
    have h2 := ih2 (he _ (by simp))
    simp only [SNode.size, treesSize]
    omega
  | opr _ ih => exact ih
  | @script row a b p c n t s sa tp v _ _ hm hs _ ih1 ih2 =>
    intro he
    have he := he.parts.2
    have h1 := ih1 (he _ (by simp))
    have h2 := ih2 (ErrorFree.unwrap (he (wrapSpc g none s sa b c) (by simp)))
    have h3 := (hs.small hm.range.2.2).2
    have h4 := wrapSpc_size (g := g) none sa s b c
    simp only [Option.toList_none, treesSize] at h4
    simp only [SNode.size, treesSize]
    omega
  | @tok row a p q b n t sb sa tp hb _ hm ha _ ih =>
    intro he
    have h1 := ih he.unwrap
    have hr := hm.range
    have h2 := (hb.small (by have := hb.le; omega)).2
    have h3 := (ha.small hr.2.2).2
    have h4 := wrapSpc_size (g := g) sb sa t a b
    omega
  | leaf _ hlt hs _ _ =>
    intro _
    have := restWeight_lt _ hlt hs.le
    simp only [SNode.size]
    omega
  | emptyBrackets g1 g2 =>
    intro _
    rw [restWeight_of_get g1, restWeight_of_get g2]
    simp only [treesSize, SNode.size, Node.weight, Nat.add_assoc, Nat.reduceAdd]
    omega
  | brackets g1 _ g2 ih =>
    intro he
    have h1 := ih (he.parts.2 _ (by simp))
    rw [restWeight_of_get g2] at h1
    rw [restWeight_of_get g1]
    simp only [treesSize, SNode.size, Node.weight] at h1 ⊢
    omega
  | @container row a n w v cells ts hr hl _ _ _ ih =>
    intro he
    have hs := trees_clean hl fun i c t hc ht => by
      have := ih i c t hc ht (ErrorFree.rows (n := n) (lo := a) (hi := a + 1) (w := w) he |>.2 t (List.mem_of_getElem? ht))
      simp only [restWeight, List.drop_length, rowWeight, List.drop_zero] at this
      omega
    rw [restWeight_of_get hr, Node.weight, SNode.size]
    omega

end Aftermath
