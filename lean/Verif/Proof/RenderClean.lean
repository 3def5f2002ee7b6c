import Verif.Proof.RenderMade
import Verif.Proof.ErrorTrees

/-! # In a formula without errors only a space after a script gets next to it in the tree -/

namespace Aftermath

variable {R : Renderers} {g : Grammar}

theorem ScriptThenSpace.nested {row c : Row} {i w : Nat} {v : Variant} {cells : List Row}
    (h1 : row[i]? = some (.container v cells w)) (h2 : c ∈ cells) (h : ScriptThenSpace c) :
    ScriptThenSpace row := by
  obtain ⟨j, hj⟩ := List.getElem?_of_mem h2
  obtain ⟨p, r, k, n, hr, h⟩ := h
  exact ⟨_, r, k, n, rowAt_nested h1 hj hr, h⟩

/-- What a script with spaces in the tree says about the row, if there are no errors. -/
def CleanSpaced (R : Renderers) (g : Grammar) : Cat → Row → Nat → Nat → SNode → Prop
  | .expr, row, _, q, t => ErrorFree g t →
      (SpacedScript g.builtIn t → ScriptThenSpace row) ∧ row[q]? ≠ some spaceNode
  | .core n tp, row, _, _, t => ErrorFree g t → fitsParser R g.builtIn n tp = true →
      SpacedScript g.builtIn t → ScriptThenSpace row
  | .tok n tp, row, p, q, t => ErrorFree g t → fitsParser R g.builtIn n tp = true →
      (SpacedScript g.builtIn t → ScriptThenSpace row) ∧ (tp.isScript = true →
      ¬ t.OpensRows → row[p]? ≠ some spaceNode → ScriptThenSpace row) ∧ row[q]? ≠ some spaceNode
  | .opr tp, row, _, _, t => ErrorFree g t → tp.isLeaf = true → SpacedScript g.builtIn t →
      ScriptThenSpace row

theorem ErrorFree.unwrap {sb sa : Option SNode} {t : SNode} {a b : Nat}
    (h : ErrorFree g (wrapSpc g sb t sa a b)) : ErrorFree g t := by
  cases sb with
  | none =>
    cases sa with
    | none => exact h
    | some _ => exact h.parts.2 t (by simp)
  | some _ => exact ErrorFree.parts (n := g.builtIn.whitespaces) h |>.2 t (by simp)

theorem wrap_scriptThenSpace {row : Row} {b p : Nat} {sa : Option SNode} {m : Node}
    (ha : Spc g row (p + 1) b sa) (hm : row[p]? = some m) (hs : m.IsScript) (h : sa ≠ none) :
    ScriptThenSpace row := by
  rcases ha with ⟨h', -⟩ | ha
  · exact absurd h' h
  · exact ⟨[], row, p, m, rfl, hm, hs, Spc.get (.inr ha) (i := p + 1) (by omega) (by omega)⟩

theorem made_clean (hf : Fits R g) {k : Cat} {row : Row} {a b : Nat} {t : SNode}
    (h : Made g k row a b t) : CleanSpaced R g k row a b t := by
  induction h with
  | missing h => exact fun he => absurd he.parts.1 (by simp [Grammar.errorNames])
  | unknown h =>
    exact fun he => absurd (by simp [Grammar.errorNames])
      (he g.builtIn.unknownToken (by simp [SNode.names]))
  | missingOperator _ _ ih1 ih2 =>
    exact fun he => absurd he.parts.1 (by simp [Grammar.errorNames])
  | atom hr _ ih =>
    intro he
    obtain ⟨h1, -, h2⟩ := ih he (hf.atom hr).1
    exact ⟨h1, h2⟩
  | «prefix» hr _ _ ih1 ih2 =>
    intro he
    have he := he.parts.2
    refine ⟨fun h => ?_, (ih2 (he _ (by simp))).2⟩
    obtain ⟨h1, h2⟩ := hf.pre hr
    rw [hf.spaced_children h1 nofun nofun] at h
    simp only [List.mem_cons, List.not_mem_nil, or_false, exists_eq_or_imp, exists_eq_left] at h
    rcases h with h | h
    · exact ih1 (he _ (by simp)) h2 h
    · exact (ih2 (he _ (by simp))).1 h
  | «infix» hr _ _ _ ih1 ih2 ih3 =>
    intro he
    have he := he.parts.2
    refine ⟨fun h => ?_, (ih3 (he _ (by simp))).2⟩
    obtain ⟨h1, h2⟩ := hf.inf hr
    rw [hf.spaced_children h1 nofun nofun] at h
    simp only [List.mem_cons, List.not_mem_nil, or_false, exists_eq_or_imp, exists_eq_left] at h
    rcases h with h | h | h
    · exact (ih1 (he _ (by simp))).1 h
    · exact ih2 (he _ (by simp)) h2 h
    · exact (ih3 (he _ (by simp))).1 h
  | «postfix» hr _ _ ih1 ih2 =>
    intro he
    have he := he.parts.2
    have ih1 := ih1 (he _ (by simp))
    have ih2 := ih2 (he _ (by simp))
    rcases hf.post hr with ⟨h1, h2⟩ | ⟨h1, h2, h3⟩
    · have ih2 := ih2 (fits_script _ h1)
      refine ⟨fun h => ?_, ih2.2.2⟩
      rcases spaced_script h with h | h | h
      · exact ih2.2.1 h1 h ih1.2
      · exact ih1.1 h
      · exact ih2.1 h
    · have ih2 := ih2 h3
      refine ⟨fun h => ?_, ih2.2.2⟩
      rw [hf.spaced_children h2 nofun nofun] at h
      simp only [List.mem_cons, List.not_mem_nil, or_false, exists_eq_or_imp, exists_eq_left] at h
      rcases h with h | h
      · exact ih1.1 h
      · exact ih2.1 h
  | opr _ ih => exact fun he hl => (ih he (hf.leafOperator hl).1).1
  | @script row a b p c n t s sa tp v hn _ hc hs _ ih1 ih2 =>
    intro he hl h
    have he := he.parts.2
    have hsc : (TokenParser.container v).isScript = true := by
      rcases hn with ⟨rfl, -⟩ | ⟨rfl, -⟩ <;> rfl
    obtain ⟨hq, m, hm, hm'⟩ := ((made_spaced hf hc) (fits_script _ hsc)).2 hsc
    subst hq
    rcases spaced_script h with h | h | h
    · have ht : s.OpensRows := by
        cases hc with
        | container _ _ _ _ _ => exact trivial
        | leaf htp _ _ _ _ => cases leaf_isLeaf htp
      exact wrap_scriptThenSpace hs hm hm' ((not_opens_wrap h ht).resolve_left fun h => h rfl)
    · exact ih1 (he _ (by simp)) hl h
    · exact ih2 (ErrorFree.unwrap (he (wrapSpc g none s sa b c) (by simp))) (fits_script _ hsc)
        (spaced_wrap hf (.inl ⟨rfl, rfl⟩ : Spc g row 0 0 none) hs h)
  | @tok row a p q b n t sb sa tp hb _ hc ha hmax ih =>
    intro he hfit
    have ih := ih he.unwrap hfit
    refine ⟨fun h => ih (spaced_wrap hf hb ha h), fun hsc h hsp => ?_, hmax⟩
    obtain ⟨hq, m, hm, hm'⟩ := ((made_spaced hf hc) hfit).2 hsc
    subst hq
    have ht : t.OpensRows := by
      obtain ⟨v, rfl, -⟩ := scriptParser hsc
      cases hc with
      | container _ _ _ _ _ => exact trivial
      | leaf htp _ _ _ _ => cases leaf_isLeaf htp
    refine wrap_scriptThenSpace ha hm hm' ((not_opens_wrap h ht).resolve_left fun h => h ?_)
    rcases hb with ⟨h, -⟩ | hb
    · exact h
    · exact absurd (Spc.get (.inr hb) (Nat.le_refl _) hb.1) hsp
  | leaf htp _ _ _ _ => exact fun _ _ h => absurd h (by simp [SpacedScript])
  | emptyBrackets _ _ =>
    intro _ hfit h
    simp only [fitsParser, Bool.and_eq_true, beq_iff_eq, Bool.or_eq_true] at hfit
    obtain ⟨k, hk, hk'⟩ := fits_brackets hfit.2
    rw [hf.spaced_children hk (by rcases hk' with rfl | rfl | rfl <;> nofun)
      (by rcases hk' with rfl | rfl | rfl <;> nofun)] at h
    simp [SpacedScript] at h
  | brackets _ _ _ ih =>
    intro he hfit h
    have he := he.parts.2
    simp only [fitsParser, Bool.and_eq_true, beq_iff_eq, Bool.or_eq_true] at hfit
    obtain ⟨k, hk, hk'⟩ := fits_brackets hfit.2
    rw [hf.spaced_children hk (by rcases hk' with rfl | rfl | rfl <;> nofun)
      (by rcases hk' with rfl | rfl | rfl <;> nofun)] at h
    simp only [List.mem_cons, List.not_mem_nil, or_false, exists_eq_or_imp, exists_eq_left,
      SpacedScript, false_or] at h
    exact (ih (he _ (by simp))).1 h
  | @container row a n w v cells ts hc hlen hw0 hmod _ ih =>
    intro he _ h
    rw [SpacedScript, spacedScriptIn_iff] at h
    obtain ⟨t, ht, h⟩ := h
    obtain ⟨j, hj⟩ := List.getElem?_of_mem ht
    have hj' := (List.getElem?_eq_some_iff.1 hj).1
    have hcj : cells[j]? = some cells[j] := List.getElem?_eq_getElem (by omega)
    exact .nested hc (List.mem_of_getElem? hcj) ((ih j _ t hcj hj (he.rows.2 t ht)).1 h)

end Aftermath
