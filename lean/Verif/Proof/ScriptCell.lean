import Verif.Proof.Click

/-! # Cells that are just a script, seen in the row -/

namespace Aftermath

variable {g : Grammar} {R : Renderers}

/-- The row contains a script. -/
def RowHasScript (row : Row) : Prop := ∃ n ∈ row, n.IsScript

/-- What a script at the top of the tree says about the row. -/
def ScriptRow (R : Renderers) (b : BuiltIn) : Cat → Row → SNode → Prop
  | .expr, row, t => t.IsScript b → RowHasScript row
  | .core n tp, row, t => fitsParser R b n tp = true →
      ¬ t.IsScript b ∧ (tp.isScript = true → RowHasScript row)
  | .tok n tp, row, t => fitsParser R b n tp = true →
      ¬ t.IsScript b ∧ (tp.isScript = true → RowHasScript row)
  | .opr _, _, _ => True

theorem Fits.not_children (hf : Fits R g) {n lo hi : Nat} {cs : List SNode} {k : RKind}
    (hk : hashGet R n = some k) (h1 : k ≠ .sub) (h2 : k ≠ .sup) :
    ¬ (SNode.children n lo hi cs).IsScript g.builtIn := hf.not_script hk h1 h2

theorem wrap_script (hf : Fits R g) {sb sa : Option SNode} {t : SNode} {a b : Nat}
    (h : ¬ t.IsScript g.builtIn) : ¬ (wrapSpc g sb t sa a b).IsScript g.builtIn := by
  cases sb <;> cases sa
  · exact h
  all_goals exact hf.not_children hf.whitespaces nofun nofun

theorem Spc.scriptCell {row : Row} {a b : Nat} {o : Option SNode} (h : Spc g row a b o) :
    ∀ t ∈ o, ¬ ScriptCell g.builtIn t := by
  rcases h with ⟨rfl, -⟩ | ⟨-, rfl, -⟩
  · nofun
  · intro t ht
    cases ht
    simp [ScriptCell]

theorem wrap_scriptCell {row : Row} {a b p q p' q' : Nat} {sb sa : Option SNode} {t : SNode}
    (hb : Spc g row p q sb) (ha : Spc g row p' q' sa)
    (h : ScriptCell g.builtIn (wrapSpc g sb t sa a b)) : ScriptCell g.builtIn t := by
  have key : ScriptCell g.builtIn (.children g.builtIn.whitespaces a b
      (sb.toList ++ t :: sa.toList)) → ScriptCell g.builtIn t := by
    rw [ScriptCell, scriptCellIn_iff]
    simp only [List.mem_append, Option.mem_toList, List.mem_cons]
    rintro ⟨c, hc | rfl | hc, hs⟩
    · exact absurd hs (hb.scriptCell c hc)
    · exact hs
    · exact absurd hs (ha.scriptCell c hc)
  cases sb <;> cases sa
  · exact h
  all_goals exact key h

theorem made_scriptCell (hf : Fits R g) {k : Cat} {row : Row} {a b : Nat} {t : SNode}
    (h : Made g k row a b t) : ScriptRow R g.builtIn k row t ∧
      (ScriptCell g.builtIn t → ScriptInCell row) := by
  induction h with
  | missing _ =>
    exact ⟨fun h => absurd h (hf.not_children hf.missingToken nofun nofun), fun h => by
      simp [ScriptCell, ScriptCellIn] at h⟩
  | unknown _ => exact ⟨fun h => h.elim, fun h => by simp [ScriptCell] at h⟩
  | missingOperator _ _ ih1 ih2 =>
    refine ⟨fun h => absurd h (hf.not_children hf.missingOperator nofun nofun), fun h => ?_⟩
    simp only [ScriptCell, ScriptCellIn, or_false, false_or] at h
    exact h.elim ih1.2 ih2.2
  | atom hr _ ih =>
    exact ⟨fun h => absurd h (ih.1 (hf.atom hr).1).1, ih.2⟩
  | «prefix» hr _ _ ih1 ih2 =>
    refine ⟨fun h => absurd h (hf.not_children (hf.pre hr).1 nofun nofun), fun h => ?_⟩
    simp only [ScriptCell, ScriptCellIn, or_false] at h
    exact h.elim ih1.2 ih2.2
  | «infix» hr _ _ _ ih1 ih2 ih3 =>
    refine ⟨fun h => absurd h (hf.not_children (hf.inf hr).1 nofun nofun), fun h => ?_⟩
    simp only [ScriptCell, ScriptCellIn, or_false] at h
    exact h.elim ih1.2 fun h => h.elim ih2.2 ih3.2
  | «postfix» hr _ _ ih1 ih2 =>
    refine ⟨fun h => ?_, fun h => ?_⟩
    · rcases hf.post hr with ⟨h1, -⟩ | ⟨-, h2, -⟩
      · exact (ih2.1 (fits_script _ h1)).2 h1
      · exact absurd h (hf.not_children h2 nofun nofun)
    · simp only [ScriptCell, ScriptCellIn, or_false] at h
      exact h.elim ih1.2 ih2.2
  | opr _ ih => exact ⟨trivial, ih.2⟩
  | @script row _ _ _ _ _ _ _ _ _ _ _ _ _ hs _ ih1 ih2 =>
    refine ⟨trivial, fun h => ?_⟩
    simp only [ScriptCell, ScriptCellIn, or_false] at h
    exact h.elim ih1.2 fun h =>
      ih2.2 (wrap_scriptCell (.inl ⟨rfl, rfl⟩ : Spc g row 0 0 none) hs h)
  | tok hb _ _ ha _ ih =>
    exact ⟨fun hfit => ⟨wrap_script hf (ih.1 hfit).1, (ih.1 hfit).2⟩,
      fun h => ih.2 (wrap_scriptCell hb ha h)⟩
  | leaf htp _ _ _ _ =>
    refine ⟨fun _ => ⟨id, fun h => ?_⟩, fun h => by simp [ScriptCell] at h⟩
    obtain ⟨v, rfl, -⟩ := scriptParser h
    cases leaf_isLeaf htp
  | emptyBrackets _ _ =>
    refine ⟨fun hfit => ⟨?_, nofun⟩, fun h => by simp [ScriptCell, ScriptCellIn] at h⟩
    simp only [fitsParser, Bool.and_eq_true, beq_iff_eq, Bool.or_eq_true] at hfit
    obtain ⟨k, hk, hk'⟩ := fits_brackets hfit.2
    exact hf.not_children hk (by rintro rfl; simp at hk') (by rintro rfl; simp at hk')
  | brackets _ _ _ ih =>
    refine ⟨fun hfit => ⟨?_, nofun⟩, fun h => ?_⟩
    · simp only [fitsParser, Bool.and_eq_true, beq_iff_eq, Bool.or_eq_true] at hfit
      obtain ⟨k, hk, hk'⟩ := fits_brackets hfit.2
      exact hf.not_children hk (by rintro rfl; simp at hk') (by rintro rfl; simp at hk')
    · simp only [ScriptCell, ScriptCellIn, or_false, false_or] at h
      exact ih.2 h
  | @container row a n w v cells ts hc hlen hw0 hmod _ ih =>
    refine ⟨fun _ => ⟨id, fun h => ?_⟩, fun h => ?_⟩
    · obtain ⟨v', hv, h⟩ := scriptParser h
      cases hv
      refine ⟨_, List.mem_of_getElem? hc, ?_⟩
      rcases h with rfl | rfl <;> trivial
    · rw [ScriptCell, scriptCellIn_iff] at h
      have key : ∀ t ∈ ts, ∃ (j : Nat) (c : Row), cells[j]? = some c ∧
          (t.IsScript g.builtIn → RowHasScript c) ∧ (ScriptCell g.builtIn t → ScriptInCell c) := by
        intro t ht
        obtain ⟨j, hj⟩ := List.getElem?_of_mem ht
        have hj' := (List.getElem?_eq_some_iff.1 hj).1
        have hcj : cells[j]? = some cells[j] := List.getElem?_eq_getElem (by omega)
        exact ⟨j, _, hcj, ih j _ t hcj hj⟩
      rcases h with ⟨t, ht, hs⟩ | ⟨t, ht, hs⟩
      · obtain ⟨j, c, hcj, h1, -⟩ := key t ht
        obtain ⟨n, hn, hns⟩ := h1 hs
        exact ⟨(a, j), [], c, n, rowAt_nested hc hcj rfl, hn, hns⟩
      · obtain ⟨j, c, hcj, -, h1⟩ := key t ht
        obtain ⟨ix, p, r, n, hr, h2⟩ := h1 hs
        exact ⟨(a, j), ix :: p, r, n, rowAt_nested hc hcj hr, h2⟩

end Aftermath
