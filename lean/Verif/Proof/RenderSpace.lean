import Verif.Proof.RenderMade

/-! # A space after a script always ends up in the tree next to the script -/

namespace Aftermath

variable {R : Renderers} {g : Grammar}

/-- From `a` to `b` there is a script with a space after it, or a container with one inside. -/
def Trig (row : Row) (a b : Nat) : Prop :=
  (∃ i m, a ≤ i ∧ i + 1 < b ∧ row[i]? = some m ∧ m.IsScript ∧ row[i + 1]? = some spaceNode) ∨
  (∃ i v cells w c, a ≤ i ∧ i < b ∧ row[i]? = some (.container v cells w) ∧ c ∈ cells ∧
    ScriptThenSpace c)

/-- A script at the end is not followed by a space. -/
def Edge (row : Row) (a b : Nat) : Prop :=
  a < b → ∀ m, row[b - 1]? = some m → m.IsScript → row[b]? ≠ some spaceNode

theorem Trig.split {row : Row} {a b c : Nat} (h : Trig row a c) (he : Edge row a b)
    (h1 : a ≤ b) : Trig row a b ∨ Trig row b c := by
  rcases h with ⟨i, m, h3, h4, h5, h6, h7⟩ | ⟨i, v, cells, w, c', h3, h4, h5⟩
  · by_cases hb : i + 1 < b
    · exact .inl (.inl ⟨i, m, h3, hb, h5, h6, h7⟩)
    · by_cases hb' : b ≤ i
      · exact .inr (.inl ⟨i, m, hb', h4, h5, h6, h7⟩)
      · have : b = i + 1 := by omega
        subst this
        exact absurd h7 (he (by omega) m h5 h6)
  · by_cases hb : i < b
    · exact .inl (.inr ⟨i, v, cells, w, c', h3, hb, h5⟩)
    · exact .inr (.inr ⟨i, v, cells, w, c', by omega, h4, h5⟩)

theorem Edge.append {row : Row} {a b c : Nat} (h1 : Edge row a b) (h2 : Edge row b c)
    (hb : b ≤ c) : Edge row a c := by
  intro h
  rcases Nat.lt_or_ge b c with hbc | hbc
  · exact h2 hbc
  · have : b = c := by omega
    subst this
    exact h1 h

theorem not_script_symbol {row : Row} {i : Nat} {m : Node} {s : Str}
    (h1 : row[i]? = some (.symbol s)) (h2 : row[i]? = some m) : ¬ m.IsScript := by
  rw [h1] at h2
  cases h2
  exact id

/-- Symbols are no scripts. -/
theorem not_trig {row : Row} {a b : Nat}
    (h : ∀ i, a ≤ i → i < b → ∃ s, row[i]? = some (.symbol s)) : ¬ Trig row a b := by
  rintro (⟨i, m, h3, h4, h5, h6, h7⟩ | ⟨i, v, cells, w, c', h3, h4, h5, -⟩)
  · obtain ⟨s, hs⟩ := h i h3 (by omega)
    exact not_script_symbol hs h5 h6
  · obtain ⟨s, hs⟩ := h i h3 h4
    rw [hs] at h5
    cases h5

theorem edge_symbol {row : Row} {a b : Nat}
    (h : a < b → ∃ s, row[b - 1]? = some (.symbol s)) : Edge row a b := by
  intro hab m hm hs
  obtain ⟨s, h'⟩ := h hab
  exact absurd hs (not_script_symbol h' hm)

theorem Spc.not_trig {row : Row} {a b : Nat} {o : Option SNode} (h : Spc g row a b o) :
    ¬ Trig row a b := Aftermath.not_trig fun _ h1 h2 => ⟨_, h.get h1 h2⟩

theorem Spc.edge {row : Row} {a b : Nat} {o : Option SNode} (h : Spc g row a b o) :
    Edge row a b := edge_symbol fun hab => ⟨_, h.get (by omega) (by omega)⟩

theorem wrap_spaced {b : BuiltIn} {sb sa : Option SNode} {t : SNode} {p q : Nat}
    (h : SpacedScript b t) : SpacedScript b (wrapSpc g sb t sa p q) := by
  have key : SpacedScript b (.children g.builtIn.whitespaces p q (sb.toList ++ t :: sa.toList)) := by
    rw [SpacedScript, spacedScriptIn_iff]
    exact .inr ⟨t, by simp, h⟩
  cases sb with
  | none =>
    cases sa with
    | none => exact h
    | some _ => exact key
  | some _ => exact key

theorem wrap_closes {sb sa : Option SNode} {t : SNode} {p q : Nat} (h : sa ≠ none) :
    ¬ (wrapSpc g sb t sa p q).OpensRows := fun h' => h (wrap_not_opens h').2

theorem spaced_child {b : BuiltIn} {n lo hi : Nat} {cs : List SNode} {c : SNode} (hc : c ∈ cs)
    (h : SpacedScript b c) : SpacedScript b (.children n lo hi cs) := by
  rw [SpacedScript, spacedScriptIn_iff]
  exact .inr ⟨c, hc, h⟩

theorem spaced_second {b : BuiltIn} {n lo hi : Nat} {l s : SNode} (hn : n = b.sub ∨ n = b.sup)
    (h : ¬ s.OpensRows) : SpacedScript b (.children n lo hi [l, s]) := by
  rw [SpacedScript]
  exact .inl ⟨hn, h⟩

/-- A formula in which a script is followed by a space. -/
theorem trig_of_scriptThenSpace {row : Row} (h : ScriptThenSpace row) :
    Trig row 0 row.length := by
  obtain ⟨p, r, k, m, hr, h1, h2, h3⟩ := h
  cases p with
  | nil =>
    cases hr
    exact .inl ⟨k, m, by omega, (List.getElem?_eq_some_iff.1 h3).1, h1, h2, h3⟩
  | cons ij p =>
    obtain ⟨i', j'⟩ := ij
    rw [rowAt] at hr
    split at hr
    · rename_i v2 cells2 w2 hc2
      split at hr
      · rename_i c2 hc3
        exact .inr ⟨i', v2, cells2, w2, c2, by omega, (List.getElem?_eq_some_iff.1 hc2).1,
          hc2, List.mem_of_getElem? hc3, p, r, k, m, hr, h1, h2, h3⟩
      · cases hr
    · cases hr

/-- What a script with a space after it in the row says about the tree. -/
def RowSpaced (b : BuiltIn) : Cat → Row → Nat → Nat → SNode → Prop
  | .expr, row, p, q, t => (Trig row p q → SpacedScript b t) ∧ Edge row p q
  | .core _ tp, row, p, q, t => (Trig row p q → SpacedScript b t) ∧
      (p < q → ∀ m, row[q - 1]? = some m → m.IsScript → tp.isScript = true)
  | .tok _ tp, row, p, q, t => (Trig row p q → SpacedScript b t ∨
      (tp.isScript = true ∧ ¬ t.OpensRows)) ∧ Edge row p q
  | .opr tp, row, p, q, t => tp.isLeaf = true → (Trig row p q → SpacedScript b t) ∧ Edge row p q

theorem made_row_spaced (hf : Fits R g) {k : Cat} {row : Row} {a b : Nat} {t : SNode}
    (h : Made g k row a b t) : RowSpaced g.builtIn k row a b t := by
  induction h with
  | missing h => exact ⟨fun h => absurd h (not_trig fun i _ _ => by omega), fun h => by omega⟩
  | @unknown row a s h =>
    refine ⟨fun h' => absurd h' (not_trig fun i h1 h2 => ⟨s, ?_⟩), edge_symbol fun _ => ⟨s, h⟩⟩
    rwa [show i = a by omega]
  | missingOperator m1 m2 ih1 ih2 =>
    refine ⟨fun h => ?_, ih1.2.append ih2.2 m2.range.2.1⟩
    rcases h.split ih1.2 m1.range.2.1 with h | h
    · exact spaced_child (by simp) (ih1.1 h)
    · exact spaced_child (by simp) (ih2.1 h)
  | atom hr _ ih =>
    refine ⟨fun h => ?_, ih.2⟩
    rcases ih.1 h with h | ⟨h, -⟩
    · exact h
    · rw [(hf.atom hr).2] at h
      cases h
  | «prefix» hr m1 m2 ih1 ih2 =>
    have ih1 := ih1 (hf.pre hr).2
    refine ⟨fun h => ?_, ih1.2.append ih2.2 m2.range.2.1⟩
    rcases h.split ih1.2 m1.range.2.1 with h | h
    · exact spaced_child (by simp) (ih1.1 h)
    · exact spaced_child (by simp) (ih2.1 h)
  | «infix» hr m1 m2 m3 ih1 ih2 ih3 =>
    have ih2 := ih2 (hf.inf hr).2
    refine ⟨fun h => ?_, (ih1.2.append ih2.2 m2.range.2.1).append ih3.2 m3.range.2.1⟩
    rcases h.split ih1.2 m1.range.2.1 with h | h
    · exact spaced_child (by simp) (ih1.1 h)
    · rcases h.split ih2.2 m2.range.2.1 with h | h
      · exact spaced_child (by simp) (ih2.1 h)
      · exact spaced_child (by simp) (ih3.1 h)
  | «postfix» hr m1 m2 ih1 ih2 =>
    refine ⟨fun h => ?_, ih1.2.append ih2.2 m2.range.2.1⟩
    rcases h.split ih1.2 m1.range.2.1 with h | h
    · exact spaced_child (by simp) (ih1.1 h)
    · rcases ih2.1 h with h | ⟨h1, h2⟩
      · exact spaced_child (by simp) h
      · rcases hf.post hr with ⟨-, hn⟩ | ⟨hn, -⟩
        · exact spaced_second hn h2
        · rw [h1] at hn
          cases hn
  | opr _ ih =>
    intro hl
    refine ⟨fun h => ?_, ih.2⟩
    rcases ih.1 h with h | ⟨h, -⟩
    · exact h
    · rw [(hf.leafOperator hl).2] at h
      cases h
  | @script row a b p c n t s sa tp v hn m1 m2 hs hmax ih1 ih2 =>
    intro hl
    have ih1 := ih1 hl
    refine ⟨fun h => ?_, fun _ _ _ _ => hmax⟩
    rcases h.split ih1.2 m1.range.2.1 with h | h
    · exact spaced_child (by simp) (ih1.1 h)
    · by_cases hsa : sa = none
      · subst hsa
        have hpc : p = c := by
          rcases hs with ⟨-, h⟩ | ⟨-, h, -⟩
          · exact h
          · cases h
        subst hpc
        exact spaced_child (c := wrapSpc g none s none b p) (by simp) (ih2.1 h)
      · exact spaced_second (by rcases hn with ⟨-, h⟩ | ⟨-, h⟩ <;> simp [h]) (wrap_closes hsa)
  | @tok row a p q b n t sb sa tp hb _ m hs hmax ih =>
    refine ⟨fun h => ?_, fun _ _ _ _ => hmax⟩
    rcases h.split hb.edge hb.le with h | h
    · exact absurd h hb.not_trig
    · by_cases hsa : sa = none
      · have hqb : q = b := by
          rcases hs with ⟨-, h⟩ | ⟨-, h, -⟩
          · exact h
          · rw [hsa] at h; cases h
        subst hqb
        exact .inl (wrap_spaced (ih.1 h))
      · by_cases hsc : tp.isScript = true
        · exact .inr ⟨hsc, wrap_closes hsa⟩
        · have he : Edge row p q := fun h m h1 h2 => absurd (ih.2 h m h1 h2) hsc
          rcases h.split he m.range.2.1 with h | h
          · exact .inl (wrap_spaced (ih.1 h))
          · exact absurd h hs.not_trig
  | @leaf row a b n tp ty ss ss' call htp h1 hs _ _ =>
    refine ⟨fun h => absurd h (not_trig fun i h1 h2 => ?_), fun h m hm hsc => ?_⟩
    · obtain ⟨s, -, h⟩ := hs.get h1 h2
      exact ⟨s, h⟩
    · obtain ⟨s, -, h⟩ := hs.get (i := b - 1) (by omega) (by omega)
      exact absurd hsc (not_script_symbol h hm)
  | @emptyBrackets row a n m o c h1 h2 =>
    refine ⟨fun h => absurd h (not_trig fun i h3 h4 => ?_), fun h m hm hsc => ?_⟩
    · rcases (by omega : i = a ∨ i = a + 1) with rfl | rfl
      · exact ⟨_, h1⟩
      · exact ⟨_, h2⟩
    · exact absurd hsc (not_script_symbol h2 hm)
  | @brackets row a b n m o c t h1 hm h2 ih =>
    refine ⟨fun h => ?_, fun h m hm hsc => absurd hsc (not_script_symbol h2 hm)⟩
    rcases h.split (b := a + 1) (edge_symbol fun _ => ⟨o, h1⟩) (by omega) with h | h
    · refine absurd h (not_trig fun i h3 h4 => ⟨o, ?_⟩)
      rwa [show i = a by omega]
    · rcases h.split ih.2 hm.range.2.1 with h | h
      · exact spaced_child (by simp) (ih.1 h)
      · refine absurd h (not_trig fun i h3 h4 => ⟨c, ?_⟩)
        rwa [show i = b by omega]
  | @container row a n w v cells ts hc hlen hw0 hmod hm ih =>
    refine ⟨fun h => ?_, fun _ m hm hs => ?_⟩
    · rcases h with ⟨i, m, h3, h4, h5, h6, h7⟩ | ⟨i, v', cells', w', c, h3, h4, h5, h6, h7⟩
      · omega
      · have : i = a := by omega
        subst this
        rw [hc] at h5
        cases h5
        obtain ⟨j, hj⟩ := List.getElem?_of_mem h6
        have hj' := (List.getElem?_eq_some_iff.1 hj).1
        have htj : ts[j]? = some ts[j] := List.getElem?_eq_getElem (by omega)
        rw [SpacedScript, spacedScriptIn_iff]
        refine ⟨_, List.mem_of_getElem? htj, (ih j c _ hj htj).1 (trig_of_scriptThenSpace h7)⟩
    · rw [Nat.add_sub_cancel, hc] at hm
      cases hm
      cases v <;> first | rfl | exact hs.elim

end Aftermath
