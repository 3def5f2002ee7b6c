import Verif.Spec.Modules
import Verif.Proof.ModulesOrder
import Verif.Proof.Made

/-! # More modules -/

namespace Aftermath

/-! ## Properties of trees that hold of their parts -/

/-- If the property holds of a tree then of its parts. -/
structure Hereditary (P : SNode → Prop) : Prop where
  children : ∀ {n lo hi cs}, P (.children n lo hi cs) → ∀ c ∈ cs, P c
  newRows : ∀ {n lo hi cs w}, P (.newRows n lo hi cs w) → ∀ c ∈ cs, P c

theorem mem_treesLeaves {l : Nat × List Str} : ∀ {ts : List SNode},
    l ∈ treesLeaves ts ↔ ∃ t ∈ ts, l ∈ t.leaves
  | [] => by simp [treesLeaves]
  | t :: ts => by simp [treesLeaves, mem_treesLeaves (ts := ts)]

theorem noLim_hereditary (v : Nat) : Hereditary (NoLim v) :=
  ⟨fun h c hc l hl => h l (by rw [SNode.leaves]; exact mem_treesLeaves.2 ⟨c, hc, hl⟩),
    fun h c hc l hl => h l (by rw [SNode.leaves]; exact mem_treesLeaves.2 ⟨c, hc, hl⟩)⟩

theorem errorFree_hereditary (g : Grammar) : Hereditary (ErrorFree g) :=
  ⟨fun h => h.parts.2, fun h => ErrorFree.rows h |>.2⟩

theorem Hereditary.and {P Q : SNode → Prop} (hP : Hereditary P) (hQ : Hereditary Q) :
    Hereditary fun t => P t ∧ Q t :=
  ⟨fun h c hc => ⟨hP.children h.1 c hc, hQ.children h.2 c hc⟩,
    fun h c hc => ⟨hP.newRows h.1 c hc, hQ.newRows h.2 c hc⟩⟩

mutual
theorem Hereditary.cell {P : SNode → Prop} (hP : Hereditary P) {Q : Row → SNode → Prop} {row : Row} {i : Nat} {v : Variant} {cells : List Row}
    {w : Nat} (hi : row[i]? = some (Node.container v cells w)) : ∀ {t : SNode}, Fills Q row t →
    t.lo ≤ i → i < t.hi → P t → ∀ c ∈ cells, ∃ t, Q c t ∧ P t
  | .leaf _ lo hi' _ ss', h, h1, h2, _ => by
    exfalso
    simp only [Fills] at h
    obtain ⟨-, ss, hs, hl, -⟩ := h
    simp only [SNode.lo, SNode.hi] at h1 h2
    have := congrArg (fun l => l[i - lo]?) hs
    simp only [List.getElem?_take, List.getElem?_drop, List.getElem?_map] at this
    rw [if_pos (by omega), show lo + (i - lo) = i by omega, hi] at this
    cases h : ss[i - lo]? <;> simp [h] at this
  | .newRows _ lo hi' ts w', h, h1, h2, hf => by
    simp only [Fills] at h
    simp only [SNode.lo, SNode.hi] at h1 h2
    obtain ⟨rfl, v', cells', hr, hc⟩ := h
    have : lo = i := by omega
    subst this
    rw [hi] at hr
    cases hr
    exact Hereditary.fillsCells hc (hP.newRows hf)
  | .children _ lo hi' cs, h, h1, h2, hf => by
    simp only [Fills] at h
    simp only [SNode.lo, SNode.hi] at h1 h2
    exact hP.fillsList hi h h1 h2 (hP.children hf)
theorem Hereditary.fillsCells {P : SNode → Prop} {Q : Row → SNode → Prop} : ∀ {cells : List Row} {ts : List SNode},
    FillsCells Q cells ts → (∀ t ∈ ts, P t) → ∀ c ∈ cells, ∃ t, Q c t ∧ P t
  | [], _, _, _ => nofun
  | _ :: _, [], h, _ => by simp only [FillsCells] at h
  | r :: rs, t :: ts, h, hf => by
    simp only [FillsCells] at h
    intro c hc
    rcases List.mem_cons.1 hc with rfl | hc
    · exact ⟨t, h.2.2.1, hf t (List.mem_cons_self ..)⟩
    · exact Hereditary.fillsCells h.2.2.2.2 (fun t ht => hf t (List.mem_cons_of_mem _ ht)) c hc
theorem Hereditary.fillsList {P : SNode → Prop} (hP : Hereditary P) {Q : Row → SNode → Prop} {row : Row} {i : Nat} {v : Variant}
    {cells : List Row} {w : Nat} (hi : row[i]? = some (Node.container v cells w)) :
    ∀ {cs : List SNode} {lo hi' : Nat}, FillsList Q row lo hi' cs → lo ≤ i → i < hi' →
    (∀ c ∈ cs, P c) → ∀ c ∈ cells, ∃ t, Q c t ∧ P t
  | [], lo, hi', h, h1, h2, _ => by simp only [FillsList] at h; omega
  | c :: cs, lo, hi', h, h1, h2, hf => by
    simp only [FillsList] at h
    by_cases hlt : i < c.hi
    · exact hP.cell hi h.2.1 (by omega) hlt (hf c (List.mem_cons_self ..))
    · exact hP.fillsList hi h.2.2 (by omega) h2 fun d hd => hf d (List.mem_cons_of_mem _ hd)
end

section hereditary

variable {g : Grammar} {P : SNode → Prop} (hP : Hereditary P)
include hP

theorem Hereditary.postfix {name : Nat} {op l t : SNode} (hb : buildPostfix name op l = .ok t)
    (h : P t) : P op ∧ P l := by
  have := new_eq hb
  subst this
  have := hP.children h
  exact ⟨this _ (by simp), this _ (by simp)⟩

theorem Hereditary.whitespaces {b : BuiltIn} {sb sa : Option SNode} {t t' : SNode} {lo hi : Nat}
    (h : b.whitespacesNode sb t sa lo hi = .ok t') (hf : P t') : P t := by
  unfold BuiltIn.whitespacesNode at h
  cases sb <;> cases sa
  · cases h; exact hf
  all_goals
    have := new_eq h
    subst this
    exact hP.children hf _ (by simp)

theorem Hereditary.scripts {call : Rec} {row : Row} : ∀ (n : Nat) {t t' : SNode} {pos p : Nat},
    parseScripts call g row n t pos = .ok (t', p) → P t' → P t
  | 0, _, _, _, _, h, _ => by cases h
  | n + 1, t, t', pos, p, h, hf => by
    unfold parseScripts at h
    obtain ⟨o, ho, h⟩ := M.bind_eq_ok.1 h
    cases o with
    | some x =>
      obtain ⟨s, p1⟩ := x
      obtain ⟨u, hu, h⟩ := M.bind_eq_ok.1 h
      exact (hP.postfix hu (Hereditary.scripts n h hf)).2
    | none =>
      obtain ⟨o, ho, h⟩ := M.bind_eq_ok.1 h
      cases o with
      | some x =>
        obtain ⟨s, p1⟩ := x
        obtain ⟨u, hu, h⟩ := M.bind_eq_ok.1 h
        exact (hP.postfix hu (Hereditary.scripts n h hf)).2
      | none => cases h; exact hf

/-- The token without spaces and scripts. -/
theorem Hereditary.token {call : Rec} {row : Row} {r : Rule} {pos p : Nat} {t : SNode}
    (h : ruleParse call g r row pos = .ok (some (t, p))) (hf : P t) :
    ∃ c p2 node, tokenParse call g r.parser row (pos + leadingSpaces (row.drop pos)) =
        .ok (some (c, p2)) ∧
      SNode.new (tokenName g r) (pos + leadingSpaces (row.drop pos)) p2 c = .ok node ∧ P node := by
  unfold ruleParse at h
  obtain ⟨⟨sb, p1⟩, hsb, h⟩ := M.bind_eq_ok.1 h
  have hp1 := parseSpaces_pos hsb
  rw [← hp1]
  obtain ⟨oo, ho, h⟩ := M.bind_eq_ok.1 h
  cases oo with
  | none => cases h
  | some x =>
    obtain ⟨c, p2⟩ := x
    obtain ⟨node, hnode, h⟩ := M.bind_eq_ok.1 h
    obtain ⟨⟨sa, p3⟩, hsa, h⟩ := M.bind_eq_ok.1 h
    obtain ⟨t', ht', h⟩ := M.bind_eq_ok.1 h
    have hf' : P t' := by
      split at h
      · obtain ⟨⟨u, p4⟩, hu, h⟩ := M.bind_eq_ok.1 h
        cases h
        exact hP.scripts _ hu hf
      · cases h
        exact hf
    exact ⟨c, p2, node, ho, hnode, hP.whitespaces ht' hf'⟩

/-- The expression between brackets has been parsed to a part of the tree. -/
theorem Hereditary.brackets {call : Rec} {row : Row} {r : Rule} {pos p n : Nat} {o cl : Str} {t : SNode}
    (hr : r.parser = .brackets n o cl) (h : ruleParse call g r row pos = .ok (some (t, p)))
    (hf : P t) : pos + leadingSpaces (row.drop pos) + 1 ≤ row.length ∧
      ∃ res q, call row (pos + leadingSpaces (row.drop pos) + 1) (0, .weak) (.sym cl) =
        .ok (res, q) ∧ P res.node := by
  obtain ⟨c, p2, node, ho, hnode, hfn⟩ := hP.token h hf
  generalize pos + leadingSpaces (row.drop pos) = p1 at *
  rw [hr] at ho
  simp only [tokenParse] at ho
  unfold parseBrackets at ho
  cases h1 : selectSym (fun s => s == o) row p1 with
  | none => rw [h1] at ho; cases ho
  | some x =>
    obtain ⟨l, p1'⟩ := x
    obtain ⟨hs, -, -, rfl⟩ := selectSym_spec h1
    simp only [h1] at ho
    obtain ⟨⟨res, q⟩, hcall, ho⟩ := M.bind_eq_ok.1 ho
    refine ⟨hs.le, res, q, hcall, ?_⟩
    cases h2 : selectSym (fun s => s == cl) row q with
    | none => simp only [h2] at ho; cases ho
    | some y =>
      obtain ⟨r', p3'⟩ := y
      simp only [h2, new_leaf, M.ok_bind] at ho
      cases ho
      have := new_eq hnode
      subst this
      exact hP.children hfn _ (by simp)

/-- The tokens of an expression are parts of its tree. -/
theorem Hereditary.tokens : ∀ {T : PTree}, P T.node → ∀ tk ∈ T.tokens, P tk.node
  | .operand r t, h => by
    intro tk htk
    simp only [PTree.tokens, List.mem_singleton] at htk
    subst htk
    exact h
  | .pre r op y, h => by
    have := hP.children h
    intro tk htk
    rcases List.mem_cons.1 htk with rfl | htk
    · exact this _ (by simp [Tok.node])
    · exact Hereditary.tokens (T := y) (this _ (by simp)) tk htk
  | .inf r op y z, h => by
    have := hP.children h
    intro tk htk
    simp only [PTree.tokens, List.mem_append, List.mem_cons] at htk
    rcases htk with htk | rfl | htk
    · exact Hereditary.tokens (T := y) (this _ (by simp)) tk htk
    · exact this _ (by simp [Tok.node])
    · exact Hereditary.tokens (T := z) (this _ (by simp)) tk htk
  | .post r op y, h => by
    have := hP.children h
    intro tk htk
    simp only [PTree.tokens, List.mem_append, List.mem_singleton] at htk
    rcases htk with htk | rfl
    · exact Hereditary.tokens (T := y) (this _ (by simp)) tk htk
    · exact this _ (by simp [Tok.node])

end hereditary

/-! ## A rule depends only on the cells and on what is between brackets -/

section rule

variable {b : BuiltIn} {xs xc : Char → Bool} {M M' : List (List Rule)} {call call' : Rec}

/-- The cells of the row are parsed to the same trees. -/
def SameCells (call call' : Rec) (row : Row) : Prop :=
  ∀ (i : Nat) v cells w, row[i]? = some (Node.container v cells w) → ∀ c ∈ cells,
    parseWhole call c = parseWhole call' c

theorem parseCells_congr : ∀ {cells : List Row}, (∀ c ∈ cells, parseWhole call c = parseWhole call' c) →
    parseCells call cells = parseCells call' cells
  | [], _ => rfl
  | c :: cells, h => by
    rw [parseCells, parseCells, h c (List.mem_cons_self ..),
      parseCells_congr fun c hc => h c (List.mem_cons_of_mem _ hc)]

theorem parseContainer_congr {row : Row} (hc : SameCells call call' row) (v : Variant) (pos : Nat) :
    parseContainer call v row pos = parseContainer call' v row pos := by
  unfold parseContainer
  cases h : row[pos]? with
  | none => rfl
  | some n =>
    cases n with
    | symbol s => rfl
    | container v' cells w => simp only [parseCells_congr (hc pos v' cells w h)]

theorem parseScripts_congr {g : Grammar} {row : Row} (hc : SameCells call call' row) :
    ∀ (n : Nat) (t : SNode) (pos : Nat),
    parseScripts call g row n t pos = parseScripts call' g row n t pos
  | 0, _, _ => rfl
  | n + 1, t, pos => by
    unfold parseScripts parseScript
    simp only [parseContainer_congr hc, parseScripts_congr hc n]

theorem ruleParse_congr {g : Grammar} {row : Row} {pos : Nat} {r : Rule} (hc : SameCells call call' row)
    (hb : ∀ n o c, r.parser = .brackets n o c →
      row[pos + leadingSpaces (row.drop pos)]? = some (.symbol o) →
      call row (pos + leadingSpaces (row.drop pos) + 1) (0, .weak) (.sym c) =
        call' row (pos + leadingSpaces (row.drop pos) + 1) (0, .weak) (.sym c)) :
    ruleParse call g r row pos = ruleParse call' g r row pos := by
  have ht : tokenParse call g r.parser row (pos + leadingSpaces (row.drop pos)) =
      tokenParse call' g r.parser row (pos + leadingSpaces (row.drop pos)) := by
    cases hp : r.parser with
    | brackets n o c =>
      simp only [tokenParse]
      unfold parseBrackets
      cases hs : selectSym (fun s => s == o) row (pos + leadingSpaces (row.drop pos)) with
      | none => rfl
      | some x =>
        obtain ⟨l, p1⟩ := x
        obtain ⟨h1, h2, rfl⟩ := selectSym_some hs
        obtain rfl := eq_of_beq_sym h2
        simp only [hb n l c hp h1]
    | container v => exact parseContainer_congr hc v _
    | _ => rfl
  unfold ruleParse
  cases hs : parseSpaces g row pos with
  | error e => rfl
  | ok o =>
    obtain ⟨sb, p1⟩ := o
    obtain rfl := parseSpaces_pos hs
    simp only [M.ok_bind, ht, parseScripts_congr hc]

end rule

/-! ## The same reading with more modules -/

theorem prefix_of_beginsWith : ∀ {ss : List Str} {rest : Row}, beginsWith ss rest = true →
    ss.map Node.symbol <+: rest
  | [], _, _ => List.nil_prefix
  | s :: ss, rest, h => by
    simp only [beginsWith, Bool.and_eq_true] at h
    cases rest with
    | nil => cases h.1
    | cons n rest =>
      have h1 := isSym_true h.1
      simp only [List.head?_cons, Option.some.injEq] at h1
      subst h1
      rw [List.map_cons, List.cons_prefix_cons]
      exact ⟨rfl, prefix_of_beginsWith h.2⟩

theorem drop_leading {row rest : Row} {pos i : Nat} (hd : row.drop pos = sp i ++ rest)
    (hi : i = leadingSpaces (row.drop pos)) :
    row.drop (pos + leadingSpaces (row.drop pos)) = rest := by
  rw [← hi]
  exact drop_sp hd

theorem ruleParse_starts {call : Rec} {g : Grammar} {row rest : Row} {pos i : Nat} {r : Rule}
    {y : SNode × Nat} (hd : row.drop pos = sp i ++ rest) (hs : isSym [' '] rest.head? = false)
    (h : ruleParse call g r row pos = .ok (some y)) : starts g rest r.parser = true := by
  cases hst : starts g rest r.parser with
  | true => rfl
  | false => rw [ruleParse_none hd hs hst] at h; cases h

section more

variable {b : BuiltIn} {x : Xid} {all M M' : List (List Rule)} {v : Nat}

theorem noneOf_of_starts {role : Role} {row rest : Row} {pos i : Nat}
    (hd : row.drop pos = sp i ++ rest) (hs : isSym [' '] rest.head? = false)
    (h : ∀ r ∈ M.flatten, r.role = some role → starts (withModules b x M) rest r.parser = true →
      False) : NoneOf (withModules b x M) role row pos := by
  intro r hr hrole
  refine ⟨0, ruleParse_none hd hs ?_⟩
  cases hst : starts (withModules b x M) rest r.parser with
  | false => rfl
  | true => exact (h r hr hrole hst).elim

theorem chosen_more (hx : x.Usual) (hall : Spread all v) (hM' : ∀ k ∈ M', k ∈ all)
    (hsub : ∀ k ∈ M, k ∈ M') (hg : (withModules b x M).Good) {role : Role} {row : Row} {pos p F : Nat}
    {t : SNode} {r : Rule} (hw : rowWf row = true) (hp : pos ≤ row.length)
    (hF : restWeight row pos ≤ F)
    (hc : SameCells (pratt (withModules b x M) F) (pratt (withModules b x M') F) row)
    (hch : Chosen (withModules b x M) role row pos t r p)
    (hb : ∀ n o c, r.parser = .brackets n o c →
      pratt (withModules b x M) F row (pos + leadingSpaces (row.drop pos) + 1) (0, .weak) (.sym c) =
        pratt (withModules b x M') F row (pos + leadingSpaces (row.drop pos) + 1) (0, .weak)
          (.sym c)) :
    Chosen (withModules b x M') role row pos t r p := by
  classical
  obtain ⟨i, rest, hd, hs, -⟩ := exists_spaces row pos
  have hne : all ≠ [] := by
    rintro rfl
    obtain ⟨bef, aft, he, -⟩ := hch
    cases hMn : M with
    | nil => simp [hMn] at he
    | cons k _ => exact absurd (hM' k (hsub k (by simp [hMn]))) (by simp)
  obtain ⟨k, hk, ho⟩ := iter_one (b := b) hx hall hne hd hs role
  have h1 := hch.at (F := F) ⟨hg, hw, hp, hF⟩
  rw [ho M _ fun k hk => hM' k (hsub k hk)] at h1
  split at h1
  · rename_i hkM
    obtain ⟨a, c, hsplit, hfail, hr⟩ := parseIter_some.1 h1
    have hmem : ∀ r' ∈ a ++ r :: c, starts (withModules b x []) rest r'.parser = true := by
      intro r' hr'
      rw [← hsplit] at hr'
      exact (mem_modRules.1 hr').2.2
    have hrole : ∀ r' ∈ a ++ r :: c, r'.role = some role := by
      intro r' hr'
      rw [← hsplit] at hr'
      exact (mem_modRules.1 hr').2.1
    refine chosen_of_parseIter (f := F) ?_
    rw [ho M' _ hM', if_pos (hsub k hkM)]
    refine parseIter_some.2 ⟨a, c, hsplit, fun r' hr' => ?_, ?_⟩
    · rw [← hfail r' hr', ruleParse_congr hc]
      intro n o cl hpar _
      exfalso
      have hpw : (modRules b x role rest k).Pairwise fun r' r => r'.role = none ∨ r'.role ≠ r.role ∨
          isBrackets r'.parser = false ∨ headsClash (headOf r'.parser) (headOf r.parser) = false := by
        unfold modRules
        rw [← List.filter_reverse, ← List.filter_reverse]
        exact ((hall.brackets k hk).filter _).filter _
      rw [hsplit, List.pairwise_append] at hpw
      have hr' : r' ∈ a ++ r :: c := List.mem_append_left _ hr'
      have hrr : r ∈ a ++ r :: c := by simp
      rcases hpw.2.2 r' ‹_› r (by simp) with h | h | h | h
      · rw [hrole r' hr'] at h; cases h
      · exact h ((hrole r' hr').trans (hrole r hrr).symm)
      · rw [hpar] at h; cases h
      · rw [fits_headsClash hx (starts_fits (x := x) rfl (hmem r' hr'))
          (starts_fits (x := x) rfl (hmem r hrr))] at h
        cases h
    · rw [← hr]
      exact (ruleParse_congr hc fun n o cl hpar _ => hb n o cl hpar).symm
  · cases h1

/-- A name that begins with `lim` is a leaf of the tree. -/
theorem variable_lim (hx : x.Usual) {call : Rec} {row rest : Row} {pos p : Nat} {t : SNode} {r : Rule}
    (hrest : row.drop (pos + leadingSpaces (row.drop pos)) = rest)
    (h : ruleParse call (withModules b x M) r row pos = .ok (some (t, p)))
    (hr : r.parser = .variable) (hk : r.role = some .atom) (hname : r.name = v)
    (hl : [['l'], ['i'], ['m']].map Node.symbol <+: rest) : ¬ NoLim v t := by
  intro hn
  obtain ⟨c, p2, node, ht, hnode, hf⟩ := (noLim_hereditary v).token h hn
  rw [hr] at ht
  simp only [tokenParse, Except.ok.injEq] at ht
  generalize pos + leadingSpaces (row.drop pos) = p1 at *
  obtain ⟨rest', rfl⟩ := hl
  have h0 : row[p1]? = some (.symbol ['l']) := by
    have := congrArg (·[0]?) hrest
    simpa [List.getElem?_drop] using this
  have h1 : row.drop (p1 + 1) = [['i'], ['m']].map Node.symbol ++ rest' := by
    have := congrArg (List.drop 1) hrest
    rw [List.drop_drop] at this
    exact this
  have hl := hx.letters 'l' (by decide)
  have hi := hx.letters 'i' (by decide)
  have hm := hx.letters 'm' (by decide)
  have hsel : selectSym (isIdentifierStart (withModules b x M)) row p1 = some (['l'], p1 + 1) := by
    unfold selectSym
    simp only [h0, isIdentifierStart, hl.1, List.all_nil, Bool.and_self, if_true]
  have hrun : symRun (isIdentifierContinue (withModules b x M)) (row.drop (p1 + 1)) =
      ['i'] :: ['m'] :: symRun (isIdentifierContinue (withModules b x M)) rest' := by
    rw [h1]
    simp only [List.map_cons, List.map_nil, List.cons_append, List.nil_append, symRun,
      isIdentifierContinue, List.all_cons, List.all_nil, hi.2, hm.2, Bool.and_self, if_true]
  unfold parseVariable at ht
  simp only [hsel, Option.bind_eq_bind, Option.bind_some, hrun, Option.some.injEq,
    Prod.mk.injEq] at ht
  obtain ⟨rfl, -⟩ := ht
  have hn : tokenName (withModules b x M) r = v := by
    unfold tokenName
    unfold Rule.role at hk
    cases hkk : r.kind <;> simp [hkk] at hk
    exact hname
  rw [hn] at hnode
  rw [new_leaf] at hnode
  cases hnode
  exact hf (v, ['l'] :: ['i'] :: ['m'] :: symRun (isIdentifierContinue (withModules b x M)) rest')
    (by simp [SNode.leaves]) rfl ⟨_, rfl⟩

theorem reads_more (hx : x.Usual) (hall : Spread all v) (hM' : ∀ k ∈ M', k ∈ all)
    (hsub : ∀ k ∈ M, k ∈ M') (hg : (withModules b x M).Good) {row : Row} {F : Nat} {e : Ending}
    (hw : rowWf row = true) (hF : rowWeight row ≤ F) (he : e = .eof ∨ e = .sym [')'])
    (hc : SameCells (pratt (withModules b x M) F) (pratt (withModules b x M') F) row)
    {X : Expects} {pos q : Nat} {toks : List Tok} (h : Reads (withModules b x M) row e X pos toks q)
    (hp : pos ≤ row.length)
    (hb : ∀ tk ∈ toks, ∀ n o c, tk.rule.parser = .brackets n o c →
      pratt (withModules b x M) F row (tk.node.lo + leadingSpaces (row.drop tk.node.lo) + 1)
          (0, .weak) (.sym c) =
        pratt (withModules b x M') F row (tk.node.lo + leadingSpaces (row.drop tk.node.lo) + 1)
          (0, .weak) (.sym c))
    (hlim : ∀ tk ∈ toks, (∀ k, all[3]? = some k → k ∈ M' → k ∈ M) ∨ NoLim v tk.node) :
    Reads (withModules b x M') row e X pos toks q := by
  have hM : ∀ r ∈ M.flatten, r ∈ all.flatten := by
    intro r hr
    obtain ⟨k, hk, hrk⟩ := List.mem_flatten.1 hr
    exact List.mem_flatten.2 ⟨k, hM' k (hsub k hk), hrk⟩
  have hM'' : ∀ r ∈ M'.flatten, r ∈ all.flatten := by
    intro r hr
    obtain ⟨k, hk, hrk⟩ := List.mem_flatten.1 hr
    exact List.mem_flatten.2 ⟨k, hM' k hk, hrk⟩
  have hrest : ∀ pos, restWeight row pos ≤ F := fun pos => by
    have := restWeight_le row (Nat.zero_le pos)
    simp only [restWeight, List.drop_zero] at this ⊢
    omega
  have deep : ∀ {pos}, pos ≤ row.length → Deep (withModules b x M) row pos F :=
    fun {pos} hp => ⟨hg, hw, hp, hrest pos⟩
  have more : ∀ {role : Role} {pos p : Nat} {t : SNode} {r : Rule}, pos ≤ row.length →
      Chosen (withModules b x M) role row pos t r p →
      (∀ n o c, r.parser = .brackets n o c →
        pratt (withModules b x M) F row (t.lo + leadingSpaces (row.drop t.lo) + 1) (0, .weak)
            (.sym c) =
          pratt (withModules b x M') F row (t.lo + leadingSpaces (row.drop t.lo) + 1) (0, .weak)
            (.sym c)) →
      Chosen (withModules b x M') role row pos t r p := by
    intro role pos p t r hp hch hb
    have hlo := (hch.fills (deep hp)).1.lo_eq
    rw [hlo] at hb
    exact chosen_more hx hall hM' hsub hg hw hp (hrest pos) hc hch hb
  have hclash : ∀ {rest : Row} {r r' : Rule},
      starts (withModules b x M) rest r.parser = true →
      starts (withModules b x M') rest r'.parser = true →
      headsClash (headOf r.parser) (headOf r'.parser) = true := fun h1 h2 =>
    fits_headsClash hx (starts_fits (x := x) rfl h1) (starts_fits (x := x) rfl h2)
  induction h with
  | endOfRow => exact .endOfRow
  | @closing pos s hs hsym hn =>
    refine .closing hs hsym fun role => ?_
    have hs' : s = [')'] := by
      rcases he with he | he
      · rw [he] at hs; cases hs
      · rw [he] at hs; cases hs; rfl
    subst hs'
    obtain ⟨i, rest, hd, hsp, -⟩ := exists_spaces row pos
    refine noneOf_of_starts hd hsp fun r hr hrole hst => ?_
    have hhead : rest.head? = some (.symbol [')']) := by
      have h0 : (row.drop pos).head? = some (.symbol [')']) := by
        rw [List.head?_drop]; exact hsym
      rw [hd] at h0
      cases i with
      | zero => exact h0
      | succ i => simp [sp_succ, sy] at h0
    have := fits_headsClash hx (starts_fits (x := x) rfl hst) (h' := .sym [')']) hhead
    rcases hall.closing r (hM'' r hr) with h | h
    · rw [hrole] at h; cases h
    · rw [this] at h; cases h
  | pre hch _ ih =>
    have hle := (hch.fills (deep hp)).1.le.2
    exact .pre (more hp hch (hb _ (List.mem_cons_self ..)))
      (ih hle (fun tk h => hb tk (List.mem_cons_of_mem _ h))
        fun tk h => hlim tk (List.mem_cons_of_mem _ h))
  | inf hch _ ih =>
    have hle := (hch.fills (deep hp)).1.le.2
    exact .inf (more hp hch (hb _ (List.mem_cons_self ..)))
      (ih hle (fun tk h => hb tk (List.mem_cons_of_mem _ h))
        fun tk h => hlim tk (List.mem_cons_of_mem _ h))
  | @operand pos p q t r ts hn hch _ ih =>
    have hle := (hch.fills (deep hp)).1.le.2
    refine .operand ?_ (more hp hch (hb _ (List.mem_cons_self ..)))
      (ih hle (fun tk h => hb tk (List.mem_cons_of_mem _ h))
        fun tk h => hlim tk (List.mem_cons_of_mem _ h))
    obtain ⟨i, rest, hd, hsp, hi⟩ := exists_spaces row pos
    have hdl := drop_leading hd hi
    obtain ⟨bef, aft, hsplit, hrole, ⟨f, hparse⟩, -⟩ := hch
    have hrm : r ∈ M.flatten := by
      have : (withModules b x M).modules.flatten = M.flatten := rfl
      rw [← this, hsplit]; simp
    refine noneOf_of_starts hd hsp fun r' hr' hrole' hst => ?_
    rcases hall.atomPrefix r (hM r hrm) r' (hM'' r' hr') with h | h | h | ⟨h1, h2⟩
    · exact h hrole
    · exact h hrole'
    · rw [hclash (ruleParse_starts hd hsp hparse) hst] at h; cases h
    · obtain ⟨k', hk', hrk'⟩ := List.mem_flatten.1 hr'
      cases hpar : r'.parser with
      | symbols ss ty =>
        rw [hpar] at hst
        have hpre := prefix_of_beginsWith hst
        rcases hlim _ (List.mem_cons_self ..) with hl | hl
        · have h3 : all[3]? = some k' := by
            rcases hall.lim k' (hM' k' hk') r' hrk' with h | h
            · rw [h2] at h; cases h
            · exact h
          have hfail := hn r' (List.mem_flatten.2 ⟨k', hl k' h3 hk', hrk'⟩) hrole'
          rw [← hdl] at hpre
          exact ruleFails_symbols hfail hpar hpre
        · refine variable_lim hx hdl hparse h1 hrole ?_ ?_ hl
          · rcases hall.variable_ r (hM r hrm) with h | h | h
            · exact absurd hrole h
            · exact absurd h1 h
            · exact h
          · rw [hpar] at h2
            unfold limLike at h2
            split at h2
            · rename_i a c d ss' ty' heq
              cases heq
              simp only [Bool.and_eq_true, decide_eq_true_eq] at h2
              obtain ⟨⟨rfl, rfl⟩, rfl⟩ := h2
              refine List.IsPrefix.trans ?_ hpre
              exact ⟨ss'.map Node.symbol, rfl⟩
            · cases h2
      | _ => rw [hpar] at h2; cases h2
  | @post pos p q t r ts hn hch _ ih =>
    have hle := (hch.fills (deep hp)).1.le.2
    refine .post ?_ (more hp hch (hb _ (List.mem_cons_self ..)))
      (ih hle (fun tk h => hb tk (List.mem_cons_of_mem _ h))
        fun tk h => hlim tk (List.mem_cons_of_mem _ h))
    obtain ⟨i, rest, hd, hsp, hi⟩ := exists_spaces row pos
    obtain ⟨bef, aft, hsplit, hrole, ⟨f, hparse⟩, -⟩ := hch
    have hrm : r ∈ M.flatten := by
      have : (withModules b x M).modules.flatten = M.flatten := rfl
      rw [← this, hsplit]; simp
    refine noneOf_of_starts hd hsp fun r' hr' hrole' hst => ?_
    rcases hall.postfixInfix r (hM r hrm) r' (hM'' r' hr') with h | h | h
    · exact h hrole
    · exact h hrole'
    · rw [hclash (ruleParse_starts hd hsp hparse) hst] at h; cases h

/-- What is asked of a tree. -/
def Kept (b : BuiltIn) (x : Xid) (M : List (List Rule)) (C : Prop) (v : Nat) (t : SNode) : Prop :=
  ErrorFree (withModules b x M) t ∧ (C ∨ NoLim v t)

theorem kept_hereditary (C : Prop) : Hereditary (Kept b x M C v) :=
  (errorFree_hereditary _).and
    ⟨fun h c hc => h.imp id fun h => (noLim_hereditary v).children h c hc,
      fun h c hc => h.imp id fun h => (noLim_hereditary v).newRows h c hc⟩

theorem from_more (hx : x.Usual) (hall : Spread all v) (hM' : ∀ k ∈ M', k ∈ all)
    (hsub : ∀ k ∈ M, k ∈ M') (hg : (withModules b x M).Good) (hg' : (withModules b x M').Good)
    {row : Row} {F : Nat} (hw : rowWf row = true) (hF : rowWeight row < F)
    (hc : SameCells (pratt (withModules b x M) F) (pratt (withModules b x M') F) row) :
    ∀ (k : Nat) {pos : Nat} {e : Ending} {f q : Nat} {res : PResult}, row.length ≤ pos + k →
    pos ≤ row.length → (e = .eof ∨ e = .sym [')']) →
    pratt (withModules b x M) f row pos (0, .weak) e = .ok (res, q) →
    Kept b x M (∀ k, all[3]? = some k → k ∈ M' → k ∈ M) v res.node →
    pratt (withModules b x M) F row pos (0, .weak) e = .ok (res, q) ∧
      pratt (withModules b x M') F row pos (0, .weak) e = .ok (res, q)
  | k, pos, e, f, q, res, hk, hp, he, h, hf => by
    have hrest : restWeight row pos < F := by
      have := restWeight_le row (Nat.zero_le pos)
      simp only [restWeight, List.drop_zero] at this ⊢
      omega
    have hP := kept_hereditary (b := b) (x := x) (M := M) (v := v)
      (∀ k, all[3]? = some k → k ∈ M' → k ∈ M)
    obtain ⟨⟨toks, hseg, hfree⟩, hend⟩ := pratt_tokens _ f _ _ _ _ _ _ h hf.1
    obtain ⟨t, rfl⟩ := pratt_stop h
    have hq := hseg.end_le hg hw hp
    have hstop : Reads (withModules b x M) row e .operator q [] q := by
      rcases hend t rfl with h | ⟨s, h1, h2, h3⟩
      · have : q = row.length := by omega
        subst this
        exact .endOfRow
      · exact .closing h1 h2 h3
    have hreads := hseg.reads hstop
    obtain ⟨T, hT, hN, hpratt⟩ := pratt_reads hg hw hp hreads
    have hsame : T.node = t := by
      have h1 := pratt_mono _ (Nat.le_add_right f F) _ _ _ _ _ h
      have h2 := hpratt (f + F) (by omega)
      rw [h1] at h2
      cases h2
      rfl
    subst hsame
    have htok := hP.tokens (T := T) hf
    rw [hT] at htok
    have hreads' := reads_more hx hall hM' hsub hg hw (Nat.le_of_lt hF) he hc hreads hp
      (fun tk htk n o c hpar => by
        obtain ⟨hlo, role, p, before, after, hsplit, -, ⟨f', hf'⟩, -⟩ :=
          reads_chosen hg hw hreads hp tk htk
        obtain ⟨hle, res', q', hcall, hfr⟩ := hP.brackets hpar hf' (htok tk htk)
        have hge := reads_from hg hw hreads hp tk htk
        have hcl : c = [')'] := by
          refine hall.closer tk.rule ?_ n o c hpar
          have hm : tk.rule ∈ M.flatten := by
            have : (withModules b x M).modules.flatten = M.flatten := rfl
            rw [← this, hsplit]; simp
          obtain ⟨k, hk, hrk⟩ := List.mem_flatten.1 hm
          exact List.mem_flatten.2 ⟨k, hM' k (hsub k hk), hrk⟩
        match k with
        | 0 => omega
        | k + 1 =>
          obtain ⟨h1, h2⟩ := from_more hx hall hM' hsub hg hg' hw hF hc k (by omega) hle
            (.inr (by rw [hcl])) hcall hfr
          rw [h1, h2])
      (fun tk htk => (htok tk htk).2)
    obtain ⟨T', hT', hN', hpratt'⟩ := pratt_reads hg' hw hp hreads'
    obtain rfl := nested_unique hN' hN (hT'.trans hT.symm)
    exact ⟨hpratt F hrest, hpratt' F hrest⟩

theorem row_more (hx : x.Usual) (hall : Spread all v) (hM' : ∀ k ∈ M', k ∈ all)
    (hsub : ∀ k ∈ M, k ∈ M') (hg : (withModules b x M).Good) (hg' : (withModules b x M').Good) :
    ∀ (k : Nat) {row : Row}, rowWeight row ≤ k → rowWf row = true →
    ∀ {f t}, (withModules b x M).parseFuel f row = .ok t →
    Kept b x M (∀ k, all[3]? = some k → k ∈ M' → k ∈ M) v t →
    (withModules b x M').parse row = .ok t
  | k, row, hk, hw, f, t, h, hf => by
    have hP := kept_hereditary (b := b) (x := x) (M := M) (v := v)
      (∀ k, all[3]? = some k → k ∈ M' → k ∈ M)
    have hc : SameCells (pratt (withModules b x M) (rowWeight row + 1))
        (pratt (withModules b x M') (rowWeight row + 1)) row := by
      intro i w' cells w hi c hc
      obtain ⟨t', ht', hfill⟩ := parse_ok hg hw
      have : t = t' := by
        have h1 := parseWhole_mono (pratt_mono _ (Nat.le_add_right f (rowWeight row + 1))) row t h
        have h2 := parseWhole_mono (pratt_mono _ (Nat.le_add_left (rowWeight row + 1) f)) row t' ht'
        rw [h1] at h2
        cases h2; rfl
      subst this
      have hlen := (List.getElem?_eq_some_iff.1 hi).1
      obtain ⟨tc, ⟨f', hq⟩, hfc⟩ := hP.cell hi hfill.fills (by rw [hfill.lo_eq]; omega)
        (by rw [hfill.hi_eq]; omega) hf c hc
      have hn := rowWf_get hw hi
      simp only [Node.wf, Bool.and_eq_true] at hn
      have h1 := rowWeight_lt_cells hc
      have h2 := restWeight_of_get hi
      have h3 := restWeight_le row (Nat.zero_le i)
      simp only [restWeight, List.drop_zero, Node.weight] at h2 h3
      have hwc := cellsWf_iff.1 hn.2 c hc
      have hlt : rowWeight c < rowWeight row + 1 := by omega
      have e1 : (withModules b x M').parse c = .ok tc := by
        match k with
        | 0 => omega
        | k + 1 => exact row_more hx hall hM' hsub hg hg' k (by omega) hwc hq hfc
      have e2 : (withModules b x M).parse c = .ok tc := by
        have h1 := parseWhole_mono (pratt_mono _ (Nat.le_add_right f' (rowWeight c + 1))) c tc hq
        rw [← parseFuel_eq hg hwc (f := f' + (rowWeight c + 1)) (by omega)]
        exact h1
      exact ((parseFuel_eq hg hwc hlt).trans e2).trans ((parseFuel_eq hg' hwc hlt).trans e1).symm
    unfold Grammar.parseFuel parseWhole at h
    obtain ⟨⟨res, p⟩, hcall, h⟩ := Aftermath.M.bind_eq_ok.1 h
    simp only at h
    split at h
    · rename_i hp
      cases h
      obtain ⟨-, h2⟩ := from_more hx hall hM' hsub hg hg' hw (Nat.lt_succ_self _) hc row.length
        (by omega) (Nat.zero_le _) (.inl rfl) hcall hf
      unfold Grammar.parse Grammar.parseFuel parseWhole
      rw [h2]
      simp only [Aftermath.M.ok_bind, hp, if_true]
    · cases h

end more

end Aftermath
