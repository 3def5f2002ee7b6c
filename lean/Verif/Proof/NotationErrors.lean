import Verif.Proof.NotationUnique
import Verif.Proof.DomMarks

/-! # A syntax tree that says something has no error nodes -/

namespace Aftermath

variable {x : Xid} {g : Grammar} {m : NameMap}

theorem named_number (S : Std x g m) {p : String × String} {n k : Nat} (h : IsNamed m p n)
    (hk : IsNamed m p k) : n = k := Option.some.inj (h.symm.trans hk)

theorem named_fine (S : Std x g m) {p : String × String} {n k : Nat} (h : IsNamed m p n)
    (hk : (p, k) ∈ shippedNumbers) : n ∉ g.errorNames := by
  rw [named_number S h (S.numbers _ hk)]
  simp only [Grammar.errorNames, S.builtIn]
  have : ∀ e ∈ shippedNumbers, e.2 ∉ [5, 6, 7] := by decide +kernel
  exact this _ hk

theorem BinOp.mem_numbers (o : BinOp) : (o.path, o.number) ∈ shippedNumbers := by
  cases o <;> decide +kernel
theorem PreOp.mem_numbers (o : PreOp) : (o.path, o.number) ∈ shippedNumbers := by
  cases o <;> decide +kernel
theorem ScriptKind.mem_numbers (k : ScriptKind) : (k.path, k.number) ∈ shippedNumbers := by
  cases k <;> decide +kernel
theorem PostOp.mem_numbers (o : PostOp) : (o.path, o.rule.name) ∈ shippedNumbers := by
  cases o <;> decide +kernel
theorem Constant.mem_numbers (k : Constant) : ∃ n, (k.path, n) ∈ shippedNumbers := by
  cases k
  · exact ⟨21, by decide +kernel⟩
  · exact ⟨34, by decide +kernel⟩
  · exact ⟨35, by decide +kernel⟩

theorem errorFree_children {n lo hi : Nat} {cs : List SNode} (hn : n ∉ g.errorNames)
    (h : ∀ c ∈ cs, ErrorFree g c) : ErrorFree g (.children n lo hi cs) := by
  intro k hk
  simp only [SNode.names, List.mem_cons, mem_treesNames] at hk
  rcases hk with rfl | ⟨c, hc, hk⟩
  · exact hn
  · exact h c hc k hk

theorem errorFree_newRows {n lo hi w : Nat} {cs : List SNode} (hn : n ∉ g.errorNames)
    (h : ∀ c ∈ cs, ErrorFree g c) : ErrorFree g (.newRows n lo hi cs w) := by
  intro k hk
  simp only [SNode.names, List.mem_cons, mem_treesNames] at hk
  rcases hk with rfl | ⟨c, hc, hk⟩
  · exact hn
  · exact h c hc k hk

theorem errorFree_leaf {n lo hi : Nat} {ty : LeafType} {ss : List Str} (hn : n ∉ g.errorNames) :
    ErrorFree g (.leaf n lo hi ty ss) := by
  intro k hk
  simp only [SNode.names, List.mem_singleton] at hk
  rwa [hk]

theorem space_errorFree (S : Std x g m) {t : SNode} (h : IsSpace m t) : ErrorFree g t := by
  obtain ⟨_, _, _, _, _, rfl, hk⟩ := h
  exact errorFree_leaf (named_fine S hk (k := 2) (by decide +kernel))

theorem spaces_errorFree (S : Std x g m) {n lo hi : Nat} {t : SNode} {before after : List SNode}
    (hn : IsNamed m ("BuiltIn", "Whitespaces") n) (hs : ∀ s ∈ before ++ after, IsSpace m s)
    (ht : ErrorFree g t) : ErrorFree g (.children n lo hi (before ++ t :: after)) := by
  refine errorFree_children (named_fine S hn (k := 1) (by decide +kernel)) fun c hc => ?_
  rcases List.mem_append.1 hc with hc | hc
  · exact space_errorFree S (hs c (List.mem_append_left _ hc))
  · rcases List.mem_cons.1 hc with rfl | hc
    · exact ht
    · exact space_errorFree S (hs c (List.mem_append_right _ hc))

theorem spaced_errorFree (S : Std x g m) {t t' : SNode} (h : Spaced m t t') (ht : ErrorFree g t) :
    ErrorFree g t' := by
  cases h with
  | none => exact ht
  | some hn hc hs =>
    subst hc
    exact spaces_errorFree S hn hs ht

theorem sign_errorFree (S : Std x g m) {s : List Char} {t : SNode} (h : IsSign m s t) :
    ErrorFree g t := by
  obtain ⟨k, lo, hi, ty, hs, hk⟩ := h
  exact spaced_errorFree S hs (errorFree_leaf (named_fine S hk (k := 0) (by decide +kernel)))

theorem script_errorFree (S : Std x g m) {y t : SNode} (h : IsScript m y t) (hy : ErrorFree g y) :
    ErrorFree g t := by
  obtain ⟨k, lo, hi, w, hs, hk⟩ := h
  exact spaced_errorFree S hs (errorFree_newRows (named_fine S hk (k := 0) (by decide +kernel))
    (by simpa using hy))

theorem op_errorFree (S : Std x g m) {s : List Char} {ss : List (ScriptKind × SNode)} {t : SNode}
    (h : IsOp m s ss t) : (∀ s ∈ ss, ErrorFree g s.2) → ErrorFree g t := by
  induction h with
  | sign h => exact fun _ => sign_errorFree S h
  | @script ss _ k _ _ _ y _ _ _ hn hs he ih =>
    intro hss
    subst he
    refine errorFree_children (named_fine S hn k.mem_numbers) ?_
    simp only [List.mem_cons, List.not_mem_nil, or_false, forall_eq_or_imp, forall_eq]
    exact ⟨ih fun s hs => hss s (List.mem_append_left _ hs),
      script_errorFree S hs (hss (k, y) (by simp))⟩

theorem ops_errorFree (S : Std x g m) {s : List Char} {n : Nat} {ks : Fin n → ScriptKind}
    {ts : Fin n → SNode} {t : SNode} (h : IsOp m s (List.ofFn fun i => (ks i, ts i)) t)
    (hs : ∀ i, ErrorFree g (ts i)) : ErrorFree g t := by
  refine op_errorFree S h fun s hs' => ?_
  obtain ⟨i, rfl⟩ := List.mem_ofFn.1 hs'
  exact hs i

/-- A tree that says something has no error nodes. -/
theorem conveys_errorFree (S : Std x g m) {t : SNode} {e : Formula} (h : Conveys m t e) :
    ErrorFree g t := by
  have hop : ∀ {k}, IsNamed m ("BuiltIn", "Operator") k → k ∉ g.errorNames := fun hk =>
    named_fine S hk (k := 0) (by decide +kernel)
  induction h with
  | number hn => exact errorFree_leaf (named_fine S hn (k := 14) (by decide +kernel))
  | «variable» hn => exact errorFree_leaf (named_fine S hn (k := 12) (by decide +kernel))
  | string hn => exact errorFree_leaf (named_fine S hn (k := 41) (by decide +kernel))
  | @constant _ _ _ _ _ k hn =>
    obtain ⟨_, hk⟩ := k.mem_numbers
    exact errorFree_leaf (named_fine S hn hk)
  | @bin _ _ _ _ _ _ o _ _ _ _ _ _ hn hs _ _ _ ihs iha ihb =>
    refine errorFree_children (named_fine S hn o.mem_numbers) ?_
    simp only [List.mem_cons, List.not_mem_nil, or_false, forall_eq_or_imp, forall_eq]
    exact ⟨iha, ops_errorFree S hs ihs, ihb⟩
  | @pre _ _ _ _ _ o _ _ _ _ _ hn hs _ _ ihs iha =>
    refine errorFree_children (named_fine S hn o.mem_numbers) ?_
    simp only [List.mem_cons, List.not_mem_nil, or_false, forall_eq_or_imp, forall_eq]
    exact ⟨ops_errorFree S hs ihs, iha⟩
  | @post _ _ _ _ _ o _ hn hs _ iha =>
    refine errorFree_children (named_fine S hn o.mem_numbers) ?_
    simp only [List.mem_cons, List.not_mem_nil, or_false, forall_eq_or_imp, forall_eq]
    exact ⟨iha, sign_errorFree S hs⟩
  | script hn hk _ _ iha ihb =>
    refine errorFree_children (named_fine S hn (ScriptKind.mem_numbers _)) ?_
    simp only [List.mem_cons, List.not_mem_nil, or_false, forall_eq_or_imp, forall_eq]
    exact ⟨iha, script_errorFree S hk ihb⟩
  | apply hn hk hl hr hs _ _ iha ihb =>
    refine errorFree_children (named_fine S hn (k := 33) (by decide +kernel)) ?_
    simp only [List.mem_cons, List.not_mem_nil, or_false, forall_eq_or_imp, forall_eq]
    refine ⟨iha, spaced_errorFree S hs (errorFree_children (hop hk) ?_)⟩
    simp only [List.mem_cons, List.not_mem_nil, or_false, forall_eq_or_imp, forall_eq]
    exact ⟨sign_errorFree S hl, ihb, sign_errorFree S hr⟩
  | call hn hk hl hr hs _ iha =>
    refine errorFree_children (named_fine S hn (k := 33) (by decide +kernel)) ?_
    simp only [List.mem_cons, List.not_mem_nil, or_false, forall_eq_or_imp, forall_eq]
    refine ⟨iha, spaced_errorFree S hs (errorFree_children (hop hk) ?_)⟩
    simp only [List.mem_cons, List.not_mem_nil, or_false, forall_eq_or_imp, forall_eq]
    exact ⟨sign_errorFree S hl, sign_errorFree S hr⟩
  | unit hn hl hr =>
    refine errorFree_children (named_fine S hn (k := 13) (by decide +kernel)) ?_
    simp only [List.mem_cons, List.not_mem_nil, or_false, forall_eq_or_imp, forall_eq]
    exact ⟨sign_errorFree S hl, sign_errorFree S hr⟩
  | fraction hn _ _ iha ihb =>
    refine errorFree_newRows (named_fine S hn (k := 9) (by decide +kernel)) ?_
    simp only [List.mem_cons, List.not_mem_nil, or_false, forall_eq_or_imp, forall_eq]
    exact ⟨iha, ihb⟩
  | root hn _ _ iha ihb =>
    refine errorFree_newRows (named_fine S hn (k := 10) (by decide +kernel)) ?_
    simp only [List.mem_cons, List.not_mem_nil, or_false, forall_eq_or_imp, forall_eq]
    exact ⟨iha, ihb⟩
  | table hn hts _ ih =>
    subst hts
    refine errorFree_newRows (named_fine S hn (k := 11) (by decide +kernel)) fun c hc => ?_
    obtain ⟨i, rfl⟩ := List.mem_ofFn.1 hc
    exact ih i
  | spaces hn hc hs _ iha =>
    subst hc
    exact spaces_errorFree S hn hs iha
  | brackets hn hl hr _ iha =>
    refine errorFree_children (named_fine S hn (k := 13) (by decide +kernel)) ?_
    simp only [List.mem_cons, List.not_mem_nil, or_false, forall_eq_or_imp, forall_eq]
    exact ⟨sign_errorFree S hl, iha, sign_errorFree S hr⟩

end Aftermath
