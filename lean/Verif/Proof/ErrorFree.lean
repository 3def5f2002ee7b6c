import Verif.Proof.TreeNames

/-! # Where the parser makes no error nodes -/

namespace Aftermath

variable {g : Grammar}

theorem Grammar.ErrorsApart.gives (ha : g.ErrorsApart) : g.Gives (· ∉ g.errorNames) :=
  ⟨ha.builtIn, ha.rules, ha.brackets⟩

/-- The cells of all containers in the row are without errors. -/
def CellsFree (g : Grammar) (row : Row) : Prop :=
  ∀ (i : Nat) v cells w, row[i]? = some (Node.container v cells w) → ∀ c ∈ cells, ∀ f t,
    g.parseFuel f c = .ok t → ErrorFree g t

theorem errorFree_tree {T : PTree} (h : ∀ tk ∈ T.tokens, ErrorFree g tk.node ∧
    tk.rule.name ∉ g.errorNames) : ErrorFree g T.node := by
  induction T with
  | operand r t => exact (h (.operand r t) (List.mem_singleton.2 rfl)).1
  | pre r op x ih =>
    have h1 := h (.pre r op) (List.mem_cons_self ..)
    refine named_children (P := (· ∉ g.errorNames)) h1.2 fun c hc => ?_
    rcases List.mem_cons.1 hc with rfl | hc
    · exact h1.1
    · rw [List.mem_singleton.1 hc]
      exact ih fun tk htk => h tk (List.mem_cons_of_mem _ htk)
  | inf r op x y ihx ihy =>
    have h1 := h (.inf r op) (by simp [PTree.tokens])
    refine named_children (P := (· ∉ g.errorNames)) h1.2 fun c hc => ?_
    rcases List.mem_cons.1 hc with rfl | hc
    · exact ihx fun tk htk => h tk (List.mem_append_left _ htk)
    · rcases List.mem_cons.1 hc with rfl | hc
      · exact h1.1
      · rw [List.mem_singleton.1 hc]
        exact ihy fun tk htk => h tk (List.mem_append_right _ (List.mem_cons_of_mem _ htk))
  | post r op x ih =>
    have h1 := h (.post r op) (by simp [PTree.tokens])
    refine named_children (P := (· ∉ g.errorNames)) h1.2 fun c hc => ?_
    rcases List.mem_cons.1 hc with rfl | hc
    · exact ih fun tk htk => h tk (List.mem_append_left _ htk)
    · rw [List.mem_singleton.1 hc]; exact h1.1

/-- Every token has been parsed where its node starts. -/
theorem reads_chosen {e : Ending} {row : Row} {x : Expects} {pos q : Nat} {toks : List Tok}
    (hg : g.Good) (hw : rowWf row = true) (h : Reads g row e x pos toks q) (hp : pos ≤ row.length) :
    ∀ tk ∈ toks, tk.node.lo ≤ row.length ∧
      ∃ role p, Chosen g role row tk.node.lo tk.node tk.rule p := by
  have deep : ∀ {pos}, pos ≤ row.length → Deep g row pos (restWeight row pos) :=
    fun hp => ⟨hg, hw, hp, Nat.le_refl _⟩
  induction h with
  | endOfRow => exact nofun
  | closing _ _ _ => exact nofun
  | pre hc _ ih =>
    have hf := hc.fills (deep hp)
    exact List.forall_mem_cons.2 ⟨⟨by rw [Tok.node, hf.1.lo_eq]; exact hp, _, _,
      by rw [Tok.node, hf.1.lo_eq]; exact hc⟩, ih hf.1.le.2⟩
  | inf hc _ ih =>
    have hf := hc.fills (deep hp)
    exact List.forall_mem_cons.2 ⟨⟨by rw [Tok.node, hf.1.lo_eq]; exact hp, _, _,
      by rw [Tok.node, hf.1.lo_eq]; exact hc⟩, ih hf.1.le.2⟩
  | operand _ hc _ ih =>
    have hf := hc.fills (deep hp)
    exact List.forall_mem_cons.2 ⟨⟨by rw [Tok.node, hf.1.lo_eq]; exact hp, _, _,
      by rw [Tok.node, hf.1.lo_eq]; exact hc⟩, ih hf.1.le.2⟩
  | post _ hc _ ih =>
    have hf := hc.fills (deep hp)
    exact List.forall_mem_cons.2 ⟨⟨by rw [Tok.node, hf.1.lo_eq]; exact hp, _, _,
      by rw [Tok.node, hf.1.lo_eq]; exact hc⟩, ih hf.1.le.2⟩

theorem pratt_unique {row : Row} {pos : Nat} {min : Power} {e : Ending} {f f' : Nat}
    {x x' : PResult × Nat} (h : pratt g f row pos min e = .ok x)
    (h' : pratt g f' row pos min e = .ok x') : x = x' := by
  have h1 := pratt_mono g (Nat.le_add_right f f') row pos min e x h
  have h2 := pratt_mono g (Nat.le_add_left f' f) row pos min e x' h'
  rw [h1] at h2
  cases h2
  rfl

/-- The parser reads the whole expression as one correctly nested tree. -/
theorem pratt_reads (hg : g.Good) {row : Row} (hw : rowWf row = true) {e : Ending} {pos q : Nat}
    {toks : List Tok} (hp : pos ≤ row.length) (h : Reads g row e .operand pos toks q) :
    ∃ T : PTree, T.tokens = toks ∧ T.Nested ∧ ∀ f, restWeight row pos < f →
      pratt g f row pos (0, .weak) e = .ok (.stop T.node, q) := by
  obtain ⟨res, p, T, rest, hc, -, -, ho⟩ :=
    operand_reads (0, .weak) toks (F := restWeight row pos) ⟨hg, hw, hp, Nat.le_refl _⟩ h
  cases rest with
  | cons tk ts =>
    obtain ⟨-, -, o, -, hlt, -⟩ := ho.more tk ts rfl
    rw [power_not_lt_zero] at hlt
    cases hlt
  | nil =>
    obtain ⟨rfl, rfl⟩ := ho.stop rfl
    exact ⟨T, by simpa using ho.tokens, ho.nested, fun f hf =>
      pratt_mono g (Nat.succ_le_of_lt hf) _ _ _ _ _ hc⟩

theorem errorFree_from (hg : g.Good) (ha : g.ErrorsApart) {row : Row} (hw : rowWf row = true)
    (hcells : CellsFree g row) {pos : Nat} {e : Ending} (h : CleanFrom g row pos e)
    (hp : pos ≤ row.length) : ∀ f res q, pratt g f row pos (0, .weak) e = .ok (res, q) →
    ErrorFree g res.node := by
  induction h with
  | mk hr _ ih =>
    intro f res q hc
    obtain ⟨T, rfl, -, hT⟩ := pratt_reads hg hw hp hr
    have := pratt_unique hc (hT _ (Nat.lt_succ_self _))
    cases this
    refine errorFree_tree fun tk htk => ?_
    obtain ⟨hlo, role, p, hch⟩ := reads_chosen hg hw hr hp tk htk
    obtain ⟨before, after, hs, hrole, ⟨f', hf'⟩, -⟩ := hch
    have hmem : tk.rule ∈ g.modules.flatten := by rw [hs]; simp
    have hne : tk.rule.role ≠ none := by rw [hrole]; simp
    refine ⟨named_rule (P := (· ∉ g.errorNames)) ha.gives
      (fun i v cells w hi c hc t => hcells i v cells w hi c hc f' t) hmem hne
      (fun n o cl hpar hle => ?_) hf', ha.rules _ hmem hne⟩
    exact ih tk htk n o cl hpar hle f'

theorem errorFree_row (hg : g.Good) (ha : g.ErrorsApart) {row : Row} (h : CleanRow g row)
    (hw : rowWf row = true) : ∀ f t, g.parseFuel f row = .ok t → ErrorFree g t := by
  induction h with
  | @mk row hfrom _ ih =>
    intro f t ht
    have hcells : CellsFree g row := by
      intro i v cells w hi c hc f t ht
      have hn := rowWf_get hw hi
      simp only [Node.wf, Bool.and_eq_true] at hn
      exact ih i v cells w hi c hc (cellsWf_iff.1 hn.2 c hc) f t ht
    unfold Grammar.parseFuel parseWhole at ht
    obtain ⟨⟨res, p⟩, hcall, ht⟩ := M.bind_eq_ok.1 ht
    simp only at ht
    split at ht
    · cases ht
      exact errorFree_from hg ha hw hcells hfrom (Nat.zero_le _) f res p hcall
    · cases ht

end Aftermath
